import Verif.Model.Frontend
import Verif.Lemmas.IMap
import Mathlib.Data.List.Induction

/-! Helper lemmas about the web page: what each message changes, and the invariant of all histories. -/

namespace Art
namespace Web

theorem pushLogs_cons (u : UI) (l : Log) (ls : List Log) : u.pushLogs (l :: ls) =
    ({ u with errors := u.errors.insert u.nextId l, nextId := u.nextId + 1 } : UI).pushLogs ls := by
  unfold UI.pushLogs
  rw [List.foldl_cons]
  cases l.level <;> rfl

theorem pushLogs_frame (u : UI) (ls : List Log) : (u.pushLogs ls).editing = u.editing ∧
    (u.pushLogs ls).updating = u.updating ∧ (u.pushLogs ls).view = u.view ∧ (u.pushLogs ls).shared = u.shared ∧
    (u.pushLogs ls).webType = u.webType ∧ (u.pushLogs ls).fetching = u.fetching ∧
    (u.pushLogs ls).infos = u.infos ∧ (u.pushLogs ls).nextId = u.nextId + ls.length := by
  induction ls generalizing u with
  | nil => exact ⟨rfl, rfl, rfl, rfl, rfl, rfl, rfl, rfl⟩
  | cons l ls ih =>
    rw [pushLogs_cons]
    obtain ⟨h1, h2, h3, h4, h5, h6, h7, h8⟩ := ih { u with errors := u.errors.insert u.nextId l, nextId := u.nextId + 1 }
    refine ⟨h1, h2, h3, h4, h5, h6, h7, h8.trans ?_⟩
    simp only [List.length_cons]
    omega

@[simp] theorem pushLogs_editing (u : UI) (ls : List Log) : (u.pushLogs ls).editing = u.editing := (pushLogs_frame u ls).1
@[simp] theorem pushLogs_updating (u : UI) (ls : List Log) : (u.pushLogs ls).updating = u.updating := (pushLogs_frame u ls).2.1
@[simp] theorem pushLogs_view (u : UI) (ls : List Log) : (u.pushLogs ls).view = u.view := (pushLogs_frame u ls).2.2.1
@[simp] theorem pushLogs_shared (u : UI) (ls : List Log) : (u.pushLogs ls).shared = u.shared := (pushLogs_frame u ls).2.2.2.1
@[simp] theorem pushLogs_webType (u : UI) (ls : List Log) : (u.pushLogs ls).webType = u.webType := (pushLogs_frame u ls).2.2.2.2.1
@[simp] theorem pushLogs_fetching (u : UI) (ls : List Log) : (u.pushLogs ls).fetching = u.fetching :=
  (pushLogs_frame u ls).2.2.2.2.2.1
@[simp] theorem pushLogs_infos (u : UI) (ls : List Log) : (u.pushLogs ls).infos = u.infos := (pushLogs_frame u ls).2.2.2.2.2.2.1
@[simp] theorem pushLogs_nextId (u : UI) (ls : List Log) : (u.pushLogs ls).nextId = u.nextId + ls.length :=
  (pushLogs_frame u ls).2.2.2.2.2.2.2

variable {nd : Char → Bool} {lim : Nat}

theorem completeEditing_ok {u u' : UI} {id : Nat} (h : u.completeEditing nd lim id = .ok u') :
    ∃ v, u' = { u with editing := u.editing.remove id, view := v } := by
  unfold UI.completeEditing at h
  split at h
  · rename_i hg
    simp only [Res.ok.injEq] at h
    subst h
    refine ⟨u.view, ?_⟩
    rcases IMap.remove_cases u.editing id with ⟨_, h2⟩ | ⟨p, _, _, h2, _⟩
    · rw [h2]
    · rw [hg] at h2; simp at h2
  · simp only at h
    split at h
    · split at h
      · rw [Res.bind_eq_ok] at h
        obtain ⟨s, _, h⟩ := h
        rw [Res.bind_eq_ok] at h
        obtain ⟨v, _, h⟩ := h
        simp only [Res.pure_def, Res.ok.injEq] at h
        exact ⟨v, h.symm⟩
      · simp only [Res.ok.injEq] at h
        exact ⟨u.view, h.symm⟩
    · simp only [Res.ok.injEq] at h
      exact ⟨u.view, h.symm⟩

theorem completeAll_ok {ids : List Nat} : ∀ {u u' : UI}, u.completeAll nd lim ids = .ok u' →
    ∃ v, u' = { u with editing := ids.foldl (fun m i => m.remove i) u.editing, view := v } := by
  induction ids with
  | nil => intro u u' h; simp [UI.completeAll] at h; exact ⟨u.view, h.symm⟩
  | cons i ids ih =>
    intro u u' h
    unfold UI.completeAll at h
    rw [Res.bind_eq_ok] at h
    obtain ⟨u1, h1, h2⟩ := h
    obtain ⟨v, rfl⟩ := completeEditing_ok h1
    obtain ⟨v', rfl⟩ := ih h2
    exact ⟨v', rfl⟩

theorem nodup_removeAll {β : Type} (ids : List Nat) : ∀ {m : IMap Nat β}, IMap.Nodup m →
    IMap.Nodup (ids.foldl (fun m i => IMap.remove m i) m) := by
  induction ids with
  | nil => intro m h; exact h
  | cons i ids ih => intro m h; exact ih (IMap.nodup_remove h i)

theorem get?_removeAll {β : Type} (ids : List Nat) : ∀ {m : IMap Nat β}, IMap.Nodup m → ∀ i,
    IMap.get? (ids.foldl (fun m i => IMap.remove m i) m) i = if i ∈ ids then none else IMap.get? m i := by
  induction ids with
  | nil => intro m h i; simp
  | cons j ids ih =>
    intro m h i
    rw [List.foldl_cons, ih (IMap.nodup_remove h j), IMap.get?_remove h]
    show (if _ then _ else if j = i then none else _) = _
    by_cases h1 : i ∈ ids
    · simp [h1]
    · by_cases h2 : j = i
      · simp [h2]
      · have h3 : ¬ i = j := fun e => h2 e.symm
        simp [h1, h2, h3]

/-- A message made of a response. -/
def IsRecv : Msg → Prop
  | .recvInitial .. => True
  | .recvProject .. => True
  | .recvError .. => True
  | _ => False

theorem get?_insert_nat {β : Type} (m : IMap Nat β) (a : Nat) (b : β) (a' : Nat) :
    IMap.get? (IMap.insert m a b) a' = if a = a' then some b else IMap.get? m a' := IMap.get?_insert m a b a'

theorem get?_remove_nat {β : Type} {m : IMap Nat β} (hm : IMap.Nodup m) (a a' : Nat) :
    IMap.get? (IMap.remove m a) a' = if a = a' then none else IMap.get? m a' := IMap.get?_remove hm a a'

theorem recvProject_ok {u u' : UI} {jid : Nat} {p : Proj} (h : u.recvProject nd lim jid p = .ok u') :
    (u.updating.get? jid = none ∧ u' = { u with shared := p, fetching := false }) ∨
    ∃ ids v, u.updating.get? jid = some ids ∧
      u' = { u with shared := p, fetching := false, updating := u.updating.remove jid,
                    editing := ids.foldl (fun m i => m.remove i) u.editing, view := v } := by
  unfold UI.recvProject at h
  simp only at h
  cases hg : u.updating.get? jid with
  | none =>
    rw [hg] at h
    simp only [Res.ok.injEq] at h
    exact Or.inl ⟨rfl, h.symm⟩
  | some ids =>
    rw [hg] at h
    obtain ⟨v, rfl⟩ := completeAll_ok h
    exact Or.inr ⟨ids, v, rfl, rfl⟩

theorem editArtifact_ok {u u' : UI} {id : Nat} {f : Field} (h : u.editArtifact id f = .ok u') :
    ∃ e e', u.editing.get? id = some e ∧ e.set f = some e' ∧ u' = { u with editing := u.editing.insert id e' } := by
  unfold UI.editArtifact at h
  split at h
  · simp at h
  · rename_i e he
    split at h
    · simp at h
    · rename_i e' he'
      simp only [Res.ok.injEq] at h
      exact ⟨e, e', he, he', h.symm⟩

theorem startCurrent_ok {u u' : UI} {id : Nat} (h : u.startCurrent id = .ok u') :
    ∃ n a, u.view = .artifact n ∧ u.shared.get? n = some a ∧
      u' = { u with editing := u.editing.insert id (Edit.fromArtifact a) } := by
  unfold UI.startCurrent at h
  split at h
  · rename_i n hv
    split at h
    · rename_i a ha
      simp only [Res.ok.injEq] at h
      exact ⟨n, a, hv, ha, h.symm⟩
    · simp at h
  · simp at h

theorem startSendUpdate_ok {u u' : UI} {ids : List Nat} {sent : List Req}
    (h : u.startSendUpdate ids = .ok (u', sent)) :
    (u.fetching = true ∧ u' = u.pushLogs [⟨.info, c!"in progress"⟩] ∧ sent = []) ∨
    (u.fetching = false ∧ ∃ ops, Res.mapM' u.opOf ids = .ok ops ∧ sent = [.modify u.nextId ops] ∧
      u' = { u with fetching := true, updating := u.updating.insert u.nextId ids, nextId := u.nextId + 1 }) := by
  unfold UI.startSendUpdate at h
  split at h
  · rename_i hf
    simp only [Res.ok.injEq, Prod.mk.injEq] at h
    exact Or.inl ⟨hf, h.1.symm, h.2.symm⟩
  · rename_i hf
    rw [Res.bind_eq_ok] at h
    obtain ⟨ops, h1, h2⟩ := h
    simp only [Res.pure_def, Res.ok.injEq, Prod.mk.injEq] at h2
    exact Or.inr ⟨by simpa using hf, ops, h1, h2.2.symm, h2.1.symm⟩

theorem startFetchProject_cases (u : UI) (r : Bool) :
    ((u.webType = .static ∨ u.fetching = true) ∧ ∃ l, u.startFetchProject r = (u.pushLogs [l], [])) ∨
    (u.webType ≠ .static ∧ u.fetching = false ∧
      u.startFetchProject r = ({ u with fetching := true, nextId := u.nextId + 1 }, [.read u.nextId r])) := by
  unfold UI.startFetchProject
  by_cases h1 : u.webType = .static
  · rw [if_pos h1]; exact Or.inl ⟨Or.inl h1, _, rfl⟩
  · rw [if_neg h1]
    cases h2 : u.fetching with
    | true => rw [if_pos rfl]; exact Or.inl ⟨Or.inr rfl, _, rfl⟩
    | false => rw [if_neg (by simp)]; exact Or.inr ⟨h1, rfl, rfl⟩

/-- Everything the proofs need to know about one message. -/
structure Eff (u : UI) (m : Msg) (u' : UI) (sent : List Req) : Prop where
  infos : u'.infos = u.infos
  next : u.nextId ≤ u'.nextId
  edNodup : IMap.Nodup u.editing → IMap.Nodup u'.editing
  upNodup : IMap.Nodup u.updating → IMap.Nodup u'.updating
  ed : ∀ id, (u'.editing.get? id).isSome = true → (u.editing.get? id).isSome = true ∨ m = .startNew id ∨ m = .startCurrent id
  up : IMap.Nodup u.updating → ∀ j ids, u'.updating.get? j = some ids → u.updating.get? j = some ids ∨
    (j = u.nextId ∧ m = .sendUpdate ids ∧ u'.nextId = u.nextId + 1 ∧ u.fetching = false ∧
      ∃ ops, sent = [.modify j ops] ∧ Res.mapM' u.opOf ids = .ok ops)
  busy : ¬ IsRecv m → sent.length + u.fetching.toNat = u'.fetching.toNat
  recv : IsRecv m → sent.length = u'.fetching.toNat
  jids : ∀ q ∈ sent, (∃ r, q = .read u.nextId r ∧ u'.nextId = u.nextId + 1) ∨
    ∃ ops, q = .modify u.nextId ops ∧ u'.nextId = u.nextId + 1

theorem eff_frame {u : UI} {m : Msg} {u' : UI} (hm : ¬ IsRecv m) (h1 : u'.infos = u.infos) (h2 : u.nextId ≤ u'.nextId)
    (h3 : u'.editing = u.editing) (h4 : u'.updating = u.updating) (h5 : u'.fetching = u.fetching) : Eff u m u' [] where
  infos := h1
  next := h2
  edNodup := by rw [h3]; exact id
  upNodup := by rw [h4]; exact id
  ed := by rw [h3]; exact fun _ h => Or.inl h
  up := by rw [h4]; exact fun _ _ _ h => Or.inl h
  busy := by rw [h5]; simp
  recv := fun h => absurd h hm
  jids := by simp

theorem isSome_removeAll {ids : List Nat} {m : IMap Nat Edit} {id : Nat} :
    (IMap.get? (ids.foldl (fun m i => IMap.remove m i) m) id).isSome = true → (IMap.get? m id).isSome = true := by
  induction ids generalizing m with
  | nil => exact fun h => h
  | cons i ids ih =>
    intro h
    have := ih h
    simp only at this
    rcases IMap.remove_cases m i with ⟨_, h2⟩ | ⟨p, hp, hk, hg, hperm⟩
    · rw [h2] at this; exact this
    · rw [IMap.get?_isSome] at this ⊢
      obtain ⟨q, hq, e⟩ := this
      exact ⟨q, hperm.mem_iff.2 (by simp [hq]), e⟩

theorem update_eff {u u' : UI} {m : Msg} {sent : List Req} (h : u.update nd lim m = .ok (u', sent)) : Eff u m u' sent := by
  cases m with
  | setView v =>
    simp only [UI.update, Res.ok.injEq, Prod.mk.injEq] at h
    obtain ⟨rfl, rfl⟩ := h
    exact eff_frame (by simp [IsRecv]) rfl (Nat.le_refl _) rfl rfl rfl
  | nav =>
    simp only [UI.update, Res.ok.injEq, Prod.mk.injEq] at h
    obtain ⟨rfl, rfl⟩ := h
    exact eff_frame (by simp [IsRecv]) rfl (Nat.le_refl _) rfl rfl rfl
  | recvInitial p w =>
    simp only [UI.update] at h
    split at h
    · simp only [Res.ok.injEq, Prod.mk.injEq] at h
      obtain ⟨rfl, rfl⟩ := h
      exact ⟨rfl, Nat.le_refl _, id, id, fun _ h => Or.inl h, fun _ _ _ h => Or.inl h,
        fun h => absurd trivial h, fun _ => rfl, by simp⟩
    · rename_i hw
      simp only [Res.ok.injEq] at h
      rcases startFetchProject_cases { u with shared := p.getD u.shared, webType := w, fetching := false } false with
        ⟨h1, _⟩ | ⟨_, _, h3⟩
      · rcases h1 with h1 | h1
        · exact absurd h1 hw
        · simp at h1
      · rw [h3] at h
        simp only [Prod.mk.injEq] at h
        obtain ⟨rfl, rfl⟩ := h
        exact ⟨rfl, Nat.le_succ _, id, id, fun _ h => Or.inl h, fun _ _ _ h => Or.inl h,
          fun h => absurd trivial h, fun _ => rfl, fun q hq => Or.inl ⟨false, by simpa using hq, rfl⟩⟩
  | fetchProject r =>
    simp only [UI.update, Res.ok.injEq] at h
    rcases startFetchProject_cases u r with ⟨_, l, h3⟩ | ⟨_, h2, h3⟩
    · rw [h3] at h
      simp only [Prod.mk.injEq] at h
      obtain ⟨rfl, rfl⟩ := h
      exact eff_frame (by simp [IsRecv]) (by simp) (by simp) (by simp) (by simp) (by simp)
    · rw [h3] at h
      simp only [Prod.mk.injEq] at h
      obtain ⟨rfl, rfl⟩ := h
      exact ⟨rfl, Nat.le_succ _, id, id, fun _ h => Or.inl h, fun _ _ _ h => Or.inl h,
        fun _ => by simp [h2], fun h => absurd h (by simp [IsRecv]), fun q hq => Or.inl ⟨r, by simpa using hq, rfl⟩⟩
  | sendUpdate ids =>
    rcases startSendUpdate_ok h with ⟨_, rfl, rfl⟩ | ⟨hf, ops, hops, rfl, rfl⟩
    · exact eff_frame (by simp [IsRecv]) (by simp) (by simp) (by simp) (by simp) (by simp)
    · refine ⟨rfl, Nat.le_succ _, id, fun h => IMap.nodup_insert h _ _, fun _ h => Or.inl h, ?_,
        fun _ => by simp [hf], fun h => absurd h (by simp [IsRecv]), fun q hq => Or.inr ⟨ops, by simpa using hq, rfl⟩⟩
      intro _ j ids' hj
      simp only [get?_insert_nat] at hj
      split at hj
      · rename_i e
        simp only [Option.some.injEq] at hj
        subst hj
        exact Or.inr ⟨e.symm, rfl, rfl, hf, ops, by rw [← e], hops⟩
      · exact Or.inl hj
  | recvProject jid p =>
    simp only [UI.update, Res.bind_eq_ok, Res.pure_def, Res.ok.injEq, Prod.mk.injEq] at h
    obtain ⟨u1, h1, rfl, rfl⟩ := h
    rcases recvProject_ok h1 with ⟨_, rfl⟩ | ⟨ids, v, hg, rfl⟩
    · exact ⟨rfl, Nat.le_refl _, id, id, fun _ h => Or.inl h, fun _ _ _ h => Or.inl h,
        fun h => absurd trivial h, fun _ => rfl, by simp⟩
    · refine ⟨rfl, Nat.le_refl _, nodup_removeAll ids, fun h => IMap.nodup_remove h _, ?_, ?_,
        fun h => absurd trivial h, fun _ => rfl, by simp⟩
      · exact fun id h => Or.inl (isSome_removeAll h)
      · intro hn j ids' hj
        simp only [get?_remove_nat hn] at hj
        split at hj
        · simp at hj
        · exact Or.inl hj
  | recvError logs =>
    simp only [UI.update, Res.ok.injEq, Prod.mk.injEq] at h
    obtain ⟨rfl, rfl⟩ := h
    exact ⟨by simp, by simp, by simp, by simp, fun _ h => Or.inl (by simpa using h),
      fun _ _ _ h => Or.inl (by simpa using h), fun h => absurd trivial h, fun _ => rfl, by simp⟩
  | pushLogs logs =>
    simp only [UI.update, Res.ok.injEq, Prod.mk.injEq] at h
    obtain ⟨rfl, rfl⟩ := h
    exact eff_frame (by simp [IsRecv]) (by simp) (by simp) (by simp) (by simp) (by simp)
  | clearLogs ids =>
    simp only [UI.update, Res.ok.injEq, Prod.mk.injEq] at h
    obtain ⟨rfl, rfl⟩ := h
    exact eff_frame (by simp [IsRecv]) rfl (Nat.le_refl _) rfl rfl rfl
  | clearAllLogs =>
    simp only [UI.update, Res.ok.injEq, Prod.mk.injEq] at h
    obtain ⟨rfl, rfl⟩ := h
    exact eff_frame (by simp [IsRecv]) rfl (Nat.le_refl _) rfl rfl rfl
  | editArtifact id f =>
    simp only [UI.update, Res.bind_eq_ok, Res.pure_def, Res.ok.injEq, Prod.mk.injEq] at h
    obtain ⟨u1, h1, rfl, rfl⟩ := h
    obtain ⟨e, e', he, _, rfl⟩ := editArtifact_ok h1
    refine ⟨rfl, Nat.le_refl _, fun h => IMap.nodup_insert h _ _, fun h => h, ?_, fun _ _ _ h => Or.inl h,
      fun _ => by simp, fun h => absurd h (by simp [IsRecv]), by simp⟩
    intro i hi
    left
    simp only [get?_insert_nat] at hi
    split at hi
    · rename_i e2; rw [← e2, he]; rfl
    · exact hi
  | startNew id =>
    simp only [UI.update, Res.ok.injEq, Prod.mk.injEq] at h
    obtain ⟨rfl, rfl⟩ := h
    refine ⟨rfl, Nat.le_refl _, fun h => IMap.nodup_insert h _ _, fun h => h, ?_, fun _ _ _ h => Or.inl h,
      fun _ => by simp, fun h => absurd h (by simp [IsRecv]), by simp⟩
    intro i hi
    simp only [get?_insert_nat] at hi
    split at hi
    · rename_i e2; rw [e2]; exact Or.inr (Or.inl rfl)
    · exact Or.inl hi
  | startCurrent id =>
    simp only [UI.update, Res.bind_eq_ok, Res.pure_def, Res.ok.injEq, Prod.mk.injEq] at h
    obtain ⟨u1, h1, rfl, rfl⟩ := h
    obtain ⟨n, a, _, _, rfl⟩ := startCurrent_ok h1
    refine ⟨rfl, Nat.le_refl _, fun h => IMap.nodup_insert h _ _, fun h => h, ?_, fun _ _ _ h => Or.inl h,
      fun _ => by simp, fun h => absurd h (by simp [IsRecv]), by simp⟩
    intro i hi
    simp only [get?_insert_nat] at hi
    split at hi
    · rename_i e2; rw [e2]; exact Or.inr (Or.inr rfl)
    · exact Or.inl hi
  | stopEdit id =>
    simp only [UI.update, Res.bind_eq_ok, Res.pure_def, Res.ok.injEq, Prod.mk.injEq] at h
    obtain ⟨u1, h1, rfl, rfl⟩ := h
    obtain ⟨v, rfl⟩ := completeEditing_ok h1
    refine ⟨rfl, Nat.le_refl _, fun h => IMap.nodup_remove h _, fun h => h, ?_, fun _ _ _ h => Or.inl h,
      fun _ => by simp, fun h => absurd h (by simp [IsRecv]), by simp⟩
    intro i hi
    exact Or.inl (isSome_removeAll (ids := [id]) hi)

/-! ## The invariant -/

/-- What a batch looks like in every history. -/
def BatchOk (u : UI) (b : List Msg) : Prop :=
  b = [] ∨ (∃ v, b = [.setView v]) ∨
    ∃ i v, i < u.nextId ∧ u.editing.get? i = none ∧ (b = [.startNew i, .setView v] ∨ b = [.startCurrent i, .setView v])

/-- The invariant of all histories. -/
structure Good (w : World) : Prop where
  count : w.outstanding.length + w.arrived.length = w.ui.fetching.toNat
  infos : w.ui.infos = []
  edNodup : IMap.Nodup w.ui.editing
  upNodup : IMap.Nodup w.ui.updating
  edLt : ∀ id, (w.ui.editing.get? id).isSome = true → id < w.ui.nextId
  upLt : ∀ j ids, w.ui.updating.get? j = some ids → j < w.ui.nextId
  arr : ∀ m ∈ w.arrived, IsRecv m
  bat : BatchOk w.ui w.batch

theorem good_init (p : Proj) (v : View) : Good (World.init p v) :=
  ⟨rfl, rfl, IMap.nodup_nil, IMap.nodup_nil, fun _ h => by simp [World.init] at h, fun _ _ h => by simp [World.init] at h,
    by simp [World.init], Or.inl rfl⟩

theorem answers_recv {q : Req} {m : Msg} (h : Answers q m) : IsRecv m := by cases h <;> trivial

theorem fromPage_not_recv {m : Msg} (h : FromPage nd lim m) : ¬ IsRecv m := by cases h <;> simp [IsRecv]

theorem fromPage_not_start {m : Msg} (h : FromPage nd lim m) : ∀ i, m ≠ .startNew i ∧ m ≠ .startCurrent i := by
  cases h <;> simp

theorem recv_not_start {m : Msg} (h : IsRecv m) : ∀ i, m ≠ .startNew i ∧ m ≠ .startCurrent i := by
  intro i; cases m <;> simp [IsRecv] at h ⊢

/-- Handling one message preserves what the invariant says about the ids. -/
theorem good_ids {w : World} (g : Good w) {m : Msg} {u' : UI} {sent : List Req} (e : Eff w.ui m u' sent)
    (hs : ∀ i, m = .startNew i ∨ m = .startCurrent i → i < w.ui.nextId) :
    IMap.Nodup u'.editing ∧ IMap.Nodup u'.updating ∧
    (∀ id, (u'.editing.get? id).isSome = true → id < u'.nextId) ∧
    (∀ j ids, u'.updating.get? j = some ids → j < u'.nextId) := by
  refine ⟨e.edNodup g.edNodup, e.upNodup g.upNodup, ?_, ?_⟩
  · intro id h
    have hn := e.next
    rcases e.ed id h with h | h
    · have := g.edLt id h; omega
    · have := hs id h; omega
  · intro j ids h
    have hn := e.next
    rcases e.up g.upNodup j ids h with h | ⟨h1, _, h2, _⟩
    · have := g.upLt j ids h; omega
    · omega

theorem good_step {w w' : World} {ev : Event} (g : Good w) (h : Step nd lim w ev w') : Good w' := by
  cases h with
  | @page m r hb hp hu =>
    obtain ⟨u', sent⟩ := r
    have e := update_eff hu
    obtain ⟨i1, i2, i3, i4⟩ := good_ids g e (fun i hi => by
      rcases hi with hi | hi
      · exact absurd hi (fromPage_not_start hp i).1
      · exact absurd hi (fromPage_not_start hp i).2)
    refine ⟨?_, e.infos.trans g.infos, i1, i2, i3, i4, g.arr, Or.inl hb⟩
    have := e.busy (fromPage_not_recv hp)
    have := g.count
    show (w.outstanding ++ sent).length + _ = _
    rw [List.length_append]
    simp only [World.after] at *
    omega
  | @create v hb hv =>
    refine ⟨g.count, g.infos, g.edNodup, g.upNodup, ?_, ?_, g.arr, ?_⟩
    · intro id h; have := g.edLt id h; show _ < w.ui.nextId + 1; omega
    · intro j ids h; have := g.upLt j ids h; show _ < w.ui.nextId + 1; omega
    · refine Or.inr (Or.inr ⟨w.ui.nextId, v, Nat.lt_succ_self _, ?_, Or.inl rfl⟩)
      cases hg : w.ui.editing.get? w.ui.nextId with
      | none => rfl
      | some x => exact absurd (g.edLt _ (by rw [hg]; rfl)) (Nat.lt_irrefl _)
  | @edit v hb hv =>
    refine ⟨g.count, g.infos, g.edNodup, g.upNodup, ?_, ?_, g.arr, ?_⟩
    · intro id h; have := g.edLt id h; show _ < w.ui.nextId + 1; omega
    · intro j ids h; have := g.upLt j ids h; show _ < w.ui.nextId + 1; omega
    · refine Or.inr (Or.inr ⟨w.ui.nextId, v, Nat.lt_succ_self _, ?_, Or.inr rfl⟩)
      cases hg : w.ui.editing.get? w.ui.nextId with
      | none => rfl
      | some x => exact absurd (g.edLt _ (by rw [hg]; rfl)) (Nat.lt_irrefl _)
  | @next m ms r hb hu =>
    obtain ⟨u', sent⟩ := r
    have e := update_eff hu
    have hm : ¬ IsRecv m ∧ (∀ i, m = .startNew i ∨ m = .startCurrent i → i < w.ui.nextId) ∧
        (ms = [] ∨ ∃ v, ms = [.setView v]) := by
      rcases g.bat with h | ⟨v, h⟩ | ⟨i, v, hi, _, h | h⟩
      · rw [hb] at h; simp at h
      · rw [hb] at h; simp at h; rw [h.1]; exact ⟨by simp [IsRecv], by simp, Or.inl h.2⟩
      · rw [hb] at h; simp at h; rw [h.1]
        exact ⟨by simp [IsRecv], by simpa using hi, Or.inr ⟨v, h.2⟩⟩
      · rw [hb] at h; simp at h; rw [h.1]
        exact ⟨by simp [IsRecv], by simpa using hi, Or.inr ⟨v, h.2⟩⟩
    obtain ⟨i1, i2, i3, i4⟩ := good_ids g e hm.2.1
    refine ⟨?_, e.infos.trans g.infos, i1, i2, i3, i4, g.arr, ?_⟩
    · have := e.busy hm.1
      have := g.count
      show (w.outstanding ++ sent).length + _ = _
      rw [List.length_append]
      simp only [World.after] at *
      omega
    · rcases hm.2.2 with h | h
      · exact Or.inl h
      · exact Or.inr (Or.inl h)
  | @response a q b m ho ha =>
    refine ⟨?_, g.infos, g.edNodup, g.upNodup, g.edLt, g.upLt, ?_, g.bat⟩
    · have := g.count
      rw [ho] at this
      simp only [List.length_append, List.length_cons, List.length_nil] at this ⊢
      omega
    · intro x hx
      rcases List.mem_append.1 hx with hx | hx
      · exact g.arr x hx
      · simp at hx; rw [hx]; exact answers_recv ha
  | @deliver m ms r hb ha hu =>
    obtain ⟨u', sent⟩ := r
    have e := update_eff hu
    have hr : IsRecv m := g.arr m (by rw [ha]; simp)
    obtain ⟨i1, i2, i3, i4⟩ := good_ids g e (fun i hi => by
      rcases hi with hi | hi
      · exact absurd hi (recv_not_start hr i).1
      · exact absurd hi (recv_not_start hr i).2)
    refine ⟨?_, e.infos.trans g.infos, i1, i2, i3, i4, ?_, Or.inl hb⟩
    · have h1 := e.recv hr
      have h2 := g.count
      rw [ha] at h2
      have h3 : w.ui.fetching.toNat ≤ 1 := Bool.toNat_le _
      show (w.outstanding ++ sent).length + _ = _
      rw [List.length_append]
      simp only [World.after, List.length_cons] at *
      omega
    · intro x hx; exact g.arr x (by rw [ha]; simp [hx])

theorem good_runs {w w' : World} {l : List Event} (g : Good w) (h : Runs nd lim w l w') : Good w' := by
  induction h with
  | nil => exact g
  | snoc _ hs ih => exact good_step ih hs

theorem runs_append {w w' w'' : World} {l l' : List Event} (h : Runs nd lim w l w') (h' : Runs nd lim w' l' w'') :
    Runs nd lim w (l ++ l') w'' := by
  induction h' with
  | nil => simpa using h
  | snoc _ hs ih => rw [← List.append_assoc]; exact .snoc ih hs

end Web
end Art
