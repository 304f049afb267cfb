import Verif.Lemmas.Frontend
import Verif.Lemmas.Graph
import Verif.Lemmas.Name
import Verif.Spec.Frontend
import Verif.Props.View

/-! Helper lemmas about the web page: requests and their responses in a history. -/

namespace Art
namespace Web

variable {nd : Char → Bool} {lim : Nat}

theorem nameBang_ok {s : Str} {n : Name} : nameBang s = .ok n ↔ n.raw = s := by
  unfold nameBang
  constructor
  · intro h
    split at h
    · rename_i n' hn
      simp only [Res.ok.injEq] at h
      rw [← h]
      exact Name.raw_of_fromStr hn
    · simp at h
  · rintro rfl
    rw [Name.fromStr_raw_self]

theorem nameBang_panic {s : Str} : nameBang s = .panic ↔ ¬ ∃ n : Name, n.raw = s := by
  constructor
  · rintro h ⟨n, hn⟩
    rw [nameBang_ok.2 hn] at h
    simp at h
  · intro h
    cases hr : nameBang s with
    | ok n => exact absurd ⟨n, nameBang_ok.1 hr⟩ h
    | err e => exact e.elim
    | panic => rfl

theorem mem_collect_sub {l : List Name} {n : Name} (h : n ∈ ISet.collect l) : n ∈ l := by
  rcases ISet.mem_extend h with h | h
  · simp at h
  · exact h

theorem toIm_ok {e : Edit} {im : ArtifactIm} (h : e.toIm = .ok im) : Says e im := by
  unfold Edit.toIm at h
  simp only [Res.bind_eq_ok, Res.pure_def, Res.ok.injEq] at h
  obtain ⟨ps, hp, n, hn, rfl⟩ := h
  rw [Res.mapM'_eq_ok] at hp
  have hp : List.Forall₂ (fun (s : Str) (n : Name) => n.raw = s) e.partof ps := hp.imp fun _ _ h => nameBang_ok.1 h
  refine ⟨nameBang_ok.1 hn, rfl, rfl, ?_, ?_, ?_⟩
  · by_cases hd : e.done = []
    · simp [hd]
    · simp [hd]
  · intro n hn
    obtain ⟨s, hs, hr⟩ := forall₂_mem_right hp (mem_collect_sub hn)
    rw [hr]; exact hs
  · intro s hs
    obtain ⟨n, hn, hr⟩ := forall₂_mem_left hp hs
    refine ⟨n, hr, ?_⟩
    have := (ISet.contains_collect ps n).2 ⟨n, hn, rfl⟩
    rw [ISet.contains_iff] at this
    obtain ⟨n', hn', hk⟩ := this
    exact ⟨n', hn', (Prod.mk.injEq _ _ _ _).mp hk⟩


theorem opOf_ok {u : UI} {id : Nat} {op : ArtifactOp} (h : u.opOf id = .ok op) :
    ∃ e, u.editing.get? id = some e ∧ OpFor e op := by
  unfold UI.opOf at h
  split at h
  · simp at h
  · rename_i e he
    simp only [Res.bind_eq_ok] at h
    obtain ⟨im, him, h⟩ := h
    refine ⟨e, he, ?_⟩
    cases ho : e.originalId with
    | none =>
      rw [ho] at h
      simp only [Res.pure_def, Res.ok.injEq] at h
      subst h
      exact ⟨ho, toIm_ok him⟩
    | some o =>
      rw [ho] at h
      simp only [Res.pure_def, Res.ok.injEq] at h
      subst h
      exact ⟨ho, toIm_ok him⟩

theorem set_typed {e e' : Edit} {f : Field} : e.set f = some e' ↔ Typed e f e' := by
  have split_at : ∀ {l : List Str} {i : Nat}, i < l.length → ∃ a x b, l = a ++ x :: b ∧ a.length = i := by
    intro l i h
    refine ⟨l.take i, l[i], l.drop (i + 1), ?_, by simp; omega⟩
    rw [List.getElem_cons_drop, List.take_append_drop]
  cases f with
  | name v => simp [Edit.set, Typed, eq_comm]
  | file v => simp [Edit.set, Typed, eq_comm]
  | done v => simp [Edit.set, Typed, eq_comm]
  | text v => simp [Edit.set, Typed, eq_comm]
  | partofCreate => simp [Edit.set, Typed, eq_comm]
  | partofUpdate i v =>
    unfold Edit.set Typed
    constructor
    · intro h
      simp only at h
      split at h
      · rename_i hi
        obtain ⟨a, x, b, hl, ha⟩ := split_at hi
        refine ⟨a, x, b, hl, ha, ?_⟩
        simp only [Option.some.injEq] at h
        rw [← h, hl, ← ha]
        simp
      · simp at h
    · rintro ⟨a, x, b, hl, ha, rfl⟩
      simp only
      rw [if_pos (by rw [hl]; simp; omega), hl, ← ha]
      simp
  | partofDelete i =>
    unfold Edit.set Typed
    constructor
    · intro h
      simp only at h
      split at h
      · rename_i hi
        obtain ⟨a, x, b, hl, ha⟩ := split_at hi
        refine ⟨a, x, b, hl, ha, ?_⟩
        simp only [Option.some.injEq] at h
        rw [← h, hl, ← ha, List.eraseIdx_append_of_length_le (by simp)]
        simp
      · simp at h
    · rintro ⟨a, x, b, hl, ha, rfl⟩
      simp only
      rw [if_pos (by rw [hl]; simp; omega), hl, ← ha, List.eraseIdx_append_of_length_le (by simp)]
      simp

/-- What the history says about the requests that have no answer yet. -/
structure Flight (nd : Char → Bool) (lim : Nat) (w0 : World) (tr : List Event) (w : World) : Prop where
  sent : ∀ j ids, w.ui.updating.get? j = some ids → ∃ ops w1 after, SentIn nd lim w0 tr w j ids ops w1 after
  mods : ∀ j ops, Req.modify j ops ∈ w.outstanding → ∃ ids, w.ui.updating.get? j = some ids ∧
    ∃ w1 after, SentIn nd lim w0 tr w j ids ops w1 after
  reads : ∀ j r, Req.read j r ∈ w.outstanding → w.ui.updating.get? j = none
  arrived : ∀ j p, Msg.recvProject j p ∈ w.arrived →
    w.ui.updating.get? j = none ∨ ∃ ids, w.ui.updating.get? j = some ids ∧
      ∃ ops w1 a b, SentIn nd lim w0 tr w j ids ops w1 (a ++ .response (.modify j ops) (.recvProject j p) :: b)

theorem SentIn.snoc {w0 w w' w1 : World} {tr after : List Event} {j : Nat} {ids : List Nat} {ops : List ArtifactOp}
    {e : Event} (h : SentIn nd lim w0 tr w j ids ops w1 after) (hs : Step nd lim w e w') :
    SentIn nd lim w0 (tr ++ [e]) w' j ids ops w1 (after ++ [e]) := by
  obtain ⟨before, w2, h1, h2, h3, h4, h5⟩ := h
  exact ⟨before, w2, by rw [h1]; simp, h2, h3, .snoc h4 hs, h5⟩

/-- One message that is not a response. -/
theorem flight_page {w0 w w' : World} {tr : List Event} {m : Msg} {u' : UI} {sent : List Req} (hr : Runs nd lim w0 tr w)
    (g : Good w) (f : Flight nd lim w0 tr w) (hu : w.ui.update nd lim m = .ok (u', sent)) (hm : ¬ IsRecv m)
    (hs : Step nd lim w (.handled m sent) w') (h1 : w'.ui = u') (h2 : w'.outstanding = w.outstanding ++ sent)
    (h3 : w'.arrived = w.arrived) : Flight nd lim w0 (tr ++ [.handled m sent]) w' := by
  have e := update_eff hu
  have hkeep : ∀ j, j < w.ui.nextId → u'.updating.get? j = w.ui.updating.get? j := by
    intro j hj
    cases m with
    | sendUpdate ids =>
      rcases startSendUpdate_ok hu with ⟨_, rfl, _⟩ | ⟨_, ops, _, _, rfl⟩
      · simp
      · simp only [get?_insert_nat]
        rw [if_neg (by omega)]
    | setView v => simp only [UI.update, Res.ok.injEq, Prod.mk.injEq] at hu; rw [← hu.1]
    | nav => simp only [UI.update, Res.ok.injEq, Prod.mk.injEq] at hu; rw [← hu.1]
    | fetchProject r =>
      simp only [UI.update, Res.ok.injEq] at hu
      rcases startFetchProject_cases w.ui r with ⟨_, l, h⟩ | ⟨_, _, h⟩ <;> rw [h] at hu <;>
        simp only [Prod.mk.injEq] at hu <;> rw [← hu.1] <;> simp
    | pushLogs l => simp only [UI.update, Res.ok.injEq, Prod.mk.injEq] at hu; rw [← hu.1]; simp
    | clearLogs l => simp only [UI.update, Res.ok.injEq, Prod.mk.injEq] at hu; rw [← hu.1]; rfl
    | clearAllLogs => simp only [UI.update, Res.ok.injEq, Prod.mk.injEq] at hu; rw [← hu.1]
    | startNew i => simp only [UI.update, Res.ok.injEq, Prod.mk.injEq] at hu; rw [← hu.1]
    | editArtifact i x =>
      simp only [UI.update, Res.bind_eq_ok, Res.pure_def, Res.ok.injEq, Prod.mk.injEq] at hu
      obtain ⟨u1, k1, rfl, _⟩ := hu
      obtain ⟨_, _, _, _, rfl⟩ := editArtifact_ok k1
      rfl
    | startCurrent i =>
      simp only [UI.update, Res.bind_eq_ok, Res.pure_def, Res.ok.injEq, Prod.mk.injEq] at hu
      obtain ⟨u1, k1, rfl, _⟩ := hu
      obtain ⟨_, _, _, _, rfl⟩ := startCurrent_ok k1
      rfl
    | stopEdit i =>
      simp only [UI.update, Res.bind_eq_ok, Res.pure_def, Res.ok.injEq, Prod.mk.injEq] at hu
      obtain ⟨u1, k1, rfl, _⟩ := hu
      obtain ⟨_, rfl⟩ := completeEditing_ok k1
      rfl
    | recvInitial _ _ => exact absurd trivial hm
    | recvProject _ _ => exact absurd trivial hm
    | recvError _ => exact absurd trivial hm
  have hnew : ∀ j ids, u'.updating.get? j = some ids → ∀ ops, sent = [.modify j ops] → m = .sendUpdate ids →
      Res.mapM' w.ui.opOf ids = .ok ops → SentIn nd lim w0 (tr ++ [.handled m sent]) w' j ids ops w [] := by
    intro j ids _ ops hsent hme hops
    subst hsent hme
    refine ⟨tr, w', rfl, hr, hs, .nil _, ?_⟩
    rw [Res.mapM'_eq_ok] at hops
    exact hops.imp fun _ _ h => opOf_ok h
  have hlt : ∀ {j ids}, w.ui.updating.get? j = some ids → j < w.ui.nextId := fun h => g.upLt _ _ h
  have hnone : sent ≠ [] → w.outstanding = [] ∧ w.arrived = [] := by
    intro hne
    have h1 := e.busy hm
    have h2 := g.count
    have h3 : u'.fetching.toNat ≤ 1 := Bool.toNat_le _
    have h4 : 0 < sent.length := List.length_pos_iff.2 hne
    exact ⟨List.length_eq_zero_iff.1 (by omega), List.length_eq_zero_iff.1 (by omega)⟩
  refine ⟨?_, ?_, ?_, ?_⟩
  · intro j ids hj
    rw [h1] at hj
    rcases e.up g.upNodup j ids hj with h | ⟨_, hme, _, _, ops, hsent, hops⟩
    · obtain ⟨ops, w1, after, h⟩ := f.sent j ids h
      exact ⟨ops, w1, _, h.snoc hs⟩
    · exact ⟨ops, w, [], hnew j ids hj ops hsent hme hops⟩
  · intro j ops hj
    rw [h2] at hj
    rcases List.mem_append.1 hj with hj | hj
    · obtain ⟨ids, hi, w1, after, h⟩ := f.mods j ops hj
      exact ⟨ids, by rw [h1, hkeep j (hlt hi)]; exact hi, w1, _, h.snoc hs⟩
    · cases m with
      | sendUpdate ids =>
        rcases startSendUpdate_ok hu with ⟨_, _, rfl⟩ | ⟨_, ops', hops, rfl, rfl⟩
        · simp at hj
        · simp only [List.mem_singleton, Req.modify.injEq] at hj
          obtain ⟨rfl, rfl⟩ := hj
          have hget : (w.ui.updating.insert w.ui.nextId ids).get? w.ui.nextId = some ids := by
            rw [get?_insert_nat, if_pos rfl]
          exact ⟨ids, by rw [h1]; exact hget, w, [], hnew _ ids hget ops rfl rfl hops⟩
      | fetchProject r =>
        simp only [UI.update, Res.ok.injEq] at hu
        rcases startFetchProject_cases w.ui r with ⟨_, l, h⟩ | ⟨_, _, h⟩ <;> rw [h] at hu <;>
          simp only [Prod.mk.injEq] at hu <;> rw [← hu.2] at hj <;> simp at hj
      | setView v => simp only [UI.update, Res.ok.injEq, Prod.mk.injEq] at hu; rw [← hu.2] at hj; simp at hj
      | nav => simp only [UI.update, Res.ok.injEq, Prod.mk.injEq] at hu; rw [← hu.2] at hj; simp at hj
      | pushLogs l => simp only [UI.update, Res.ok.injEq, Prod.mk.injEq] at hu; rw [← hu.2] at hj; simp at hj
      | clearLogs l => simp only [UI.update, Res.ok.injEq, Prod.mk.injEq] at hu; rw [← hu.2] at hj; simp at hj
      | clearAllLogs => simp only [UI.update, Res.ok.injEq, Prod.mk.injEq] at hu; rw [← hu.2] at hj; simp at hj
      | startNew i => simp only [UI.update, Res.ok.injEq, Prod.mk.injEq] at hu; rw [← hu.2] at hj; simp at hj
      | editArtifact i x =>
        simp only [UI.update, Res.bind_eq_ok, Res.pure_def, Res.ok.injEq, Prod.mk.injEq] at hu
        obtain ⟨u1, _, _, rfl⟩ := hu
        simp at hj
      | startCurrent i =>
        simp only [UI.update, Res.bind_eq_ok, Res.pure_def, Res.ok.injEq, Prod.mk.injEq] at hu
        obtain ⟨u1, _, _, rfl⟩ := hu
        simp at hj
      | stopEdit i =>
        simp only [UI.update, Res.bind_eq_ok, Res.pure_def, Res.ok.injEq, Prod.mk.injEq] at hu
        obtain ⟨u1, _, _, rfl⟩ := hu
        simp at hj
      | recvInitial _ _ => exact absurd trivial hm
      | recvProject _ _ => exact absurd trivial hm
      | recvError _ => exact absurd trivial hm
  · intro j r hj
    rw [h2] at hj
    rw [h1]
    cases hg : u'.updating.get? j with
    | none => rfl
    | some ids =>
      exfalso
      rcases e.up g.upNodup j ids hg with h | ⟨_, _, _, _, ops, hsent, _⟩
      · rcases List.mem_append.1 hj with hj | hj
        · rw [f.reads j r hj] at h; simp at h
        · have := hlt h
          rcases e.jids _ hj with ⟨_, h, _⟩ | ⟨_, h, _⟩
          · simp at h; omega
          · simp at h
      · rcases List.mem_append.1 hj with hj | hj
        · rw [(hnone (by rw [hsent]; simp)).1] at hj; simp at hj
        · rw [hsent] at hj; simp at hj
  · intro j p hj
    rw [h3] at hj
    rcases f.arrived j p hj with h | ⟨ids, hi, ops, w1, a, b, h⟩
    · left
      rw [h1]
      cases hg : u'.updating.get? j with
      | none => rfl
      | some ids =>
        exfalso
        rcases e.up g.upNodup j ids hg with h' | ⟨_, _, _, _, ops, hsent, _⟩
        · rw [h] at h'; simp at h'
        · rw [(hnone (by rw [hsent]; simp)).2] at hj; simp at hj
    · right
      refine ⟨ids, by rw [h1, hkeep j (hlt hi)]; exact hi, ops, w1, a, b ++ [.handled m sent], ?_⟩
      have := h.snoc hs
      simpa using this

theorem flight_step {w0 w w' : World} {tr : List Event} {ev : Event} (hr : Runs nd lim w0 tr w) (g : Good w)
    (f : Flight nd lim w0 tr w) (hs : Step nd lim w ev w') : Flight nd lim w0 (tr ++ [ev]) w' := by
  have hs' := hs
  cases hs with
  | @page m r hb hp hu =>
    obtain ⟨u', sent⟩ := r
    exact flight_page hr g f hu (fromPage_not_recv hp) hs' rfl rfl rfl
  | @create v hb hv =>
    exact ⟨fun j ids h => (f.sent j ids h).imp fun _ ⟨w1, a, h⟩ => ⟨w1, _, h.snoc hs'⟩,
      fun j ops h => (f.mods j ops h).imp fun _ ⟨h0, w1, a, h⟩ => ⟨h0, w1, _, h.snoc hs'⟩, f.reads,
      fun j p h => (f.arrived j p h).imp id fun ⟨ids, hi, ops, w1, a, b, h⟩ =>
        ⟨ids, hi, ops, w1, a, b ++ [.click], by simpa using h.snoc hs'⟩⟩
  | @edit v hb hv =>
    exact ⟨fun j ids h => (f.sent j ids h).imp fun _ ⟨w1, a, h⟩ => ⟨w1, _, h.snoc hs'⟩,
      fun j ops h => (f.mods j ops h).imp fun _ ⟨h0, w1, a, h⟩ => ⟨h0, w1, _, h.snoc hs'⟩, f.reads,
      fun j p h => (f.arrived j p h).imp id fun ⟨ids, hi, ops, w1, a, b, h⟩ =>
        ⟨ids, hi, ops, w1, a, b ++ [.click], by simpa using h.snoc hs'⟩⟩
  | @next m ms r hb hu =>
    obtain ⟨u', sent⟩ := r
    refine flight_page hr g f hu ?_ hs' rfl rfl rfl
    rcases g.bat with h | ⟨v, h⟩ | ⟨i, v, hi, _, h | h⟩ <;> rw [hb] at h <;> simp at h <;> rw [h.1] <;> simp [IsRecv]
  | @response a q b m ho ha =>
    refine ⟨fun j ids h => (f.sent j ids h).imp fun _ ⟨w1, a, h⟩ => ⟨w1, _, h.snoc hs'⟩, ?_, ?_, ?_⟩
    · intro j ops h
      have h : Req.modify j ops ∈ w.outstanding := by
        rw [ho]; rcases List.mem_append.1 h with h | h <;> simp [h]
      exact (f.mods j ops h).imp fun _ ⟨h0, w1, a, h⟩ => ⟨h0, w1, _, h.snoc hs'⟩
    · intro j r h
      exact f.reads j r (by rw [ho]; rcases List.mem_append.1 h with h | h <;> simp [h])
    · intro j p h
      rcases List.mem_append.1 h with h | h
      · exact (f.arrived j p h).imp id fun ⟨ids, hi, ops, w1, a, b, h⟩ =>
          ⟨ids, hi, ops, w1, a, b ++ [.response q m], by simpa using h.snoc hs'⟩
      · simp only [List.mem_singleton] at h
        subst h
        cases ha with
        | read _ r => exact Or.inl (f.reads j r (by rw [ho]; simp))
        | modify _ ops =>
          obtain ⟨ids, hi, w1, after, h⟩ := f.mods j ops (by rw [ho]; simp)
          exact Or.inr ⟨ids, hi, ops, w1, after, [], h.snoc hs'⟩
  | @deliver m ms r hb ha hu =>
    obtain ⟨u', sent⟩ := r
    have e := update_eff hu
    have hrecv : IsRecv m := g.arr m (by rw [ha]; simp)
    have hc := g.count
    rw [ha] at hc
    have h3 : w.ui.fetching.toNat ≤ 1 := Bool.toNat_le _
    simp only [List.length_cons] at hc
    have hms : ms = [] := List.length_eq_zero_iff.1 (by omega)
    have hout : w.outstanding = [] := List.length_eq_zero_iff.1 (by omega)
    have hsend : ∀ j ids, u'.updating.get? j = some ids → w.ui.updating.get? j = some ids := by
      intro j ids hj
      rcases e.up g.upNodup j ids hj with h | ⟨_, hme, _⟩
      · exact h
      · subst hme; simp [IsRecv] at hrecv
    refine ⟨fun j ids h => (f.sent j ids (hsend j ids h)).imp fun _ ⟨w1, a, h⟩ => ⟨w1, _, h.snoc hs'⟩, ?_, ?_, ?_⟩
    · intro j ops hj
      exfalso
      have hj : Req.modify j ops ∈ w.outstanding ++ sent := hj
      rw [hout] at hj
      cases m with
      | recvInitial p wt =>
        simp only [UI.update] at hu
        split at hu
        · simp only [Res.ok.injEq, Prod.mk.injEq] at hu; rw [← hu.2] at hj; simp at hj
        · simp only [Res.ok.injEq] at hu
          rcases startFetchProject_cases { w.ui with shared := p.getD w.ui.shared, webType := wt, fetching := false } false with
            ⟨_, l, h⟩ | ⟨_, _, h⟩ <;> rw [h] at hu <;> simp only [Prod.mk.injEq] at hu <;> rw [← hu.2] at hj <;> simp at hj
      | recvProject jid p =>
        simp only [UI.update, Res.bind_eq_ok, Res.pure_def, Res.ok.injEq, Prod.mk.injEq] at hu
        obtain ⟨u1, _, _, rfl⟩ := hu
        simp at hj
      | recvError l => simp only [UI.update, Res.ok.injEq, Prod.mk.injEq] at hu; rw [← hu.2] at hj; simp at hj
      | _ => simp [IsRecv] at hrecv
    · intro j r hj
      have hj : Req.read j r ∈ w.outstanding ++ sent := hj
      rw [hout, List.nil_append] at hj
      show u'.updating.get? j = none
      cases hg : u'.updating.get? j with
      | none => rfl
      | some ids =>
        exfalso
        have := g.upLt _ _ (hsend j ids hg)
        rcases e.jids _ hj with ⟨_, h, _⟩ | ⟨_, h, _⟩
        · simp at h; omega
        · simp at h
    · intro j p hj
      have hj : Msg.recvProject j p ∈ ms := hj
      rw [hms] at hj; simp at hj

theorem flight_runs {p : Proj} {v : View} {w : World} {tr : List Event} (h : Runs nd lim (World.init p v) tr w) :
    Flight nd lim (World.init p v) tr w := by
  generalize hw0 : World.init p v = w0 at h
  induction h with
  | nil =>
    subst hw0
    exact ⟨fun _ _ h => by simp [World.init] at h, fun _ _ h => by simp [World.init] at h,
      fun _ _ h => by simp [World.init] at h, fun _ _ h => by simp [World.init] at h⟩
  | snoc hr hs ih =>
    subst hw0
    exact flight_step hr (good_runs (good_init p v) hr) (ih) hs

/-- The id was given out and no edit with it will be started. -/
def Used (id : Nat) (w : World) : Prop :=
  id < w.ui.nextId ∧ ∀ m ∈ w.batch, m ≠ .startNew id ∧ m ≠ .startCurrent id

theorem used_of_some {w : World} (g : Good w) {id : Nat} (h : (w.ui.editing.get? id).isSome = true) : Used id w := by
  refine ⟨g.edLt id h, fun m hm => ?_⟩
  rcases g.bat with hb | ⟨v, hb⟩ | ⟨k, v, hk, hn, hb | hb⟩ <;> rw [hb] at hm <;> simp at hm
  · rw [hm]; simp
  · have : k ≠ id := by rintro rfl; rw [hn] at h; simp at h
    rcases hm with rfl | rfl <;> simp [this]
  · have : k ≠ id := by rintro rfl; rw [hn] at h; simp at h
    rcases hm with rfl | rfl <;> simp [this]

theorem used_step {w w' : World} {ev : Event} {id : Nat} (g : Good w) (hu : Used id w) (hs : Step nd lim w ev w') : Used id w' := by
  cases hs with
  | @page m r hb hp hu' => exact ⟨Nat.lt_of_lt_of_le hu.1 (update_eff (u' := r.1) (sent := r.2) hu').next, hu.2⟩
  | @create v hb hv =>
    refine ⟨Nat.lt_succ_of_lt hu.1, fun m hm => ?_⟩
    have : w.ui.nextId ≠ id := fun e => absurd hu.1 (by omega)
    simp at hm
    rcases hm with rfl | rfl <;> simp [this]
  | @edit v hb hv =>
    refine ⟨Nat.lt_succ_of_lt hu.1, fun m hm => ?_⟩
    have : w.ui.nextId ≠ id := fun e => absurd hu.1 (by omega)
    simp at hm
    rcases hm with rfl | rfl <;> simp [this]
  | @next m ms r hb hu' =>
    exact ⟨Nat.lt_of_lt_of_le hu.1 (update_eff (u' := r.1) (sent := r.2) hu').next,
      fun m' hm => hu.2 m' (by rw [hb]; simp [show m' ∈ ms from hm])⟩
  | response => exact hu
  | @deliver m ms r hb ha hu' => exact ⟨Nat.lt_of_lt_of_le hu.1 (update_eff (u' := r.1) (sent := r.2) hu').next, hu.2⟩

theorem gone_step {w w' : World} {ev : Event} {id : Nat} (hu : Used id w) (g : Good w) (hg : w.ui.editing.get? id = none)
    (hs : Step nd lim w ev w') : w'.ui.editing.get? id = none := by
  have key : ∀ {m : Msg} {u' : UI} {sent : List Req}, w.ui.update nd lim m = .ok (u', sent) →
      m ≠ .startNew id → m ≠ .startCurrent id → u'.editing.get? id = none := by
    intro m u' sent hup h1 h2
    cases hx : u'.editing.get? id with
    | none => rfl
    | some x =>
      rcases (update_eff hup).ed id (by rw [hx]; rfl) with h | h | h
      · rw [hg] at h; simp at h
      · exact absurd h h1
      · exact absurd h h2
  cases hs with
  | @page m r hb hp hu' => exact key hu' (fromPage_not_start hp id).1 (fromPage_not_start hp id).2
  | create => exact hg
  | edit => exact hg
  | @next m ms r hb hu' => exact key hu' (hu.2 m (by rw [hb]; simp)).1 (hu.2 m (by rw [hb]; simp)).2
  | response => exact hg
  | @deliver m ms r hb ha hu' =>
    have hr : IsRecv m := g.arr m (by rw [ha]; simp)
    exact key hu' (recv_not_start hr id).1 (recv_not_start hr id).2

theorem used_runs {w w' : World} {tr : List Event} {id : Nat} (g : Good w) (hu : Used id w) (h : Runs nd lim w tr w') :
    Used id w' := by
  induction h with
  | nil => exact hu
  | snoc hr hs ih => exact used_step (good_runs g hr) ih hs

theorem gone_runs {w w' : World} {tr : List Event} {id : Nat} (hu : Used id w) (g : Good w)
    (hg : w.ui.editing.get? id = none) (h : Runs nd lim w tr w') : Used id w' ∧ w'.ui.editing.get? id = none := by
  induction h with
  | nil => exact ⟨hu, hg⟩
  | snoc hr hs ih => exact ⟨used_step (good_runs g hr) ih.1 hs, gone_step ih.1 (good_runs g hr) ih.2 hs⟩

theorem pushLogs_old (logs : List Log) : ∀ (u : UI) {k : Nat}, k < u.nextId →
    (u.pushLogs logs).errors.get? k = u.errors.get? k := by
  induction logs with
  | nil => intro u k _; rfl
  | cons l logs ih =>
    intro u k hk
    rw [pushLogs_cons, ih _ (Nat.lt_succ_of_lt hk)]
    show IMap.get? (IMap.insert _ _ _) k = _
    rw [get?_insert_nat, if_neg (by omega)]

theorem pushLogs_new (logs : List Log) : ∀ (u : UI) {l : Log}, l ∈ logs → ∃ k, (u.pushLogs logs).errors.get? k = some l := by
  induction logs with
  | nil => intro u l h; simp at h
  | cons a logs ih =>
    intro u l hl
    rw [pushLogs_cons]
    rcases List.mem_cons.1 hl with rfl | hl
    · refine ⟨u.nextId, ?_⟩
      rw [pushLogs_old _ _ (Nat.lt_succ_self _)]
      show IMap.get? (IMap.insert _ _ _) _ = _
      rw [get?_insert_nat, if_pos rfl]
    · exact ih _ hl

theorem toIm_of {e : Edit} (h : FieldsOk e) : ∃ im, e.toIm = .ok im := by
  obtain ⟨⟨n, hn⟩, hp⟩ := h
  obtain ⟨ps, hps⟩ := Res.mapM'_ok_of (f := nameBang) (l := e.partof) (fun s hs => by
    obtain ⟨m, hm⟩ := hp s hs
    exact ⟨m, nameBang_ok.2 hm⟩)
  exact ⟨_, by unfold Edit.toIm; rw [hps, Res.bind_ok, nameBang_ok.2 hn, Res.bind_ok]; rfl⟩

theorem toIm_fields {e : Edit} {im : ArtifactIm} (h : e.toIm = .ok im) : FieldsOk e := by
  unfold Edit.toIm at h
  simp only [Res.bind_eq_ok, Res.pure_def, Res.ok.injEq] at h
  obtain ⟨ps, hp, n, hn, rfl⟩ := h
  rw [Res.mapM'_eq_ok] at hp
  refine ⟨⟨n, nameBang_ok.1 hn⟩, fun s hs => ?_⟩
  obtain ⟨m, _, hm⟩ := forall₂_mem_left hp hs
  exact ⟨m, nameBang_ok.1 hm⟩

theorem opOf_of {u : UI} {id : Nat} {e : Edit} (he : u.editing.get? id = some e) (h : FieldsOk e) : ∃ op, u.opOf id = .ok op := by
  obtain ⟨im, him⟩ := toIm_of h
  unfold UI.opOf
  rw [he]
  simp only
  rw [him, Res.bind_ok]
  cases e.originalId <;> exact ⟨_, rfl⟩

theorem opOf_fields {u : UI} {id : Nat} {op : ArtifactOp} (h : u.opOf id = .ok op) :
    ∃ e, u.editing.get? id = some e ∧ FieldsOk e := by
  unfold UI.opOf at h
  split at h
  · simp at h
  · rename_i e he
    simp only [Res.bind_eq_ok] at h
    obtain ⟨im, him, _⟩ := h
    exact ⟨e, he, toIm_fields him⟩

/-! ## Where the page goes -/

theorem fromHash_graph : View.fromHash nd lim hashGraph = .ok .graph := rfl

theorem routeRemoved_cases (u : UI) (e : Edit) :
    (∃ v s, u.routeRemoved e = .ok s ∧ View.fromHash nd lim s = .ok v ∧ Lands u.shared e v) ∨
    (u.routeRemoved e = .panic ∧ Name.fromStr e.name = .panic ∧ ∀ q ∈ u.shared, some q.2.id ≠ e.originalId) := by
  have byName : (∀ q ∈ u.shared, some q.2.id ≠ e.originalId) → ∀ r : Res Empty Str, r = (match Name.fromStr e.name with
      | .ok n => .ok (if u.shared.contains n then e.name else hashGraph)
      | .err _ => .ok hashGraph
      | .panic => .panic) →
      (∃ v s, r = .ok s ∧ View.fromHash nd lim s = .ok v ∧ Lands u.shared e v) ∨
      (r = .panic ∧ Name.fromStr e.name = .panic ∧ ∀ q ∈ u.shared, some q.2.id ≠ e.originalId) := by
    intro hno r hr
    cases hn : Name.fromStr e.name with
    | ok n =>
      rw [hn] at hr
      left
      simp only at hr
      have hraw := Name.raw_of_fromStr hn
      by_cases hc : u.shared.contains n = true
      · rw [if_pos hc] at hr
        refine ⟨.artifact n, e.name, hr, ?_, Or.inr (Or.inl ⟨hno, n, hraw, ?_, rfl⟩)⟩
        · rw [← hraw]; exact (C47_artifact_link nd lim n).1
        · rw [IMap.get?_isSome]; exact IMap.contains_iff.1 hc
      · rw [if_neg hc] at hr
        refine ⟨.graph, hashGraph, hr, fromHash_graph, Or.inr (Or.inr ⟨hno, fun n' hn' => ?_, rfl⟩)⟩
        have : Name.fromStr n'.raw = .ok n' := Name.fromStr_raw_self n'
        rw [hn', hn] at this
        simp only [Res.ok.injEq] at this
        subst this
        cases hg : u.shared.get? n with
        | none => rfl
        | some x => exact absurd (IMap.contains_iff.2 (IMap.get?_isSome.1 (by rw [hg]; rfl))) hc
    | err x =>
      rw [hn] at hr
      left
      refine ⟨.graph, hashGraph, hr, fromHash_graph, Or.inr (Or.inr ⟨hno, fun n' hn' => ?_, rfl⟩)⟩
      have : Name.fromStr n'.raw = .ok n' := Name.fromStr_raw_self n'
      rw [hn', hn] at this
      simp at this
    | panic =>
      rw [hn] at hr
      exact Or.inr ⟨hr, rfl, hno⟩
  unfold UI.routeRemoved
  simp only
  cases ho : e.originalId with
  | none =>
    have hno : ∀ q ∈ u.shared, some q.2.id ≠ e.originalId := by intro q _; rw [ho]; simp
    have := byName hno _ rfl
    rw [ho] at this
    exact this
  | some o =>
    simp only
    split
    · rename_i q hq
      have hq1 := List.find?_some hq
      have hq2 := List.mem_of_find?_eq_some hq
      simp only [decide_eq_true_eq] at hq1
      exact Or.inl ⟨_, _, rfl, (C47_artifact_link nd lim q.2.name).1, Or.inl ⟨o, q, ho, hq2, hq1, rfl⟩⟩
    · rename_i hq
      have hno : ∀ q ∈ u.shared, some q.2.id ≠ e.originalId := by
        intro q hm hc
        rw [ho] at hc
        rw [List.find?_eq_none] at hq
        exact hq q hm (by simpa using hc)
      have := byName hno _ rfl
      rw [ho] at this
      exact this

theorem completeEditing_cases (u : UI) (id : Nat) :
    (∃ u', u.completeEditing nd lim id = .ok u' ∧
      ((u'.view = u.view ∧ (u.view = .edit id → u.editing.get? id = none)) ∨
       ∃ e, u.view = .edit id ∧ u.editing.get? id = some e ∧ Lands u.shared e u'.view)) ∨
    (u.completeEditing nd lim id = .panic ∧ ∃ e, u.view = .edit id ∧ u.editing.get? id = some e ∧
      Name.fromStr e.name = .panic ∧ ∀ q ∈ u.shared, some q.2.id ≠ e.originalId) := by
  unfold UI.completeEditing
  cases hg : u.editing.get? id with
  | none => exact Or.inl ⟨u, rfl, Or.inl ⟨rfl, fun _ => rfl⟩⟩
  | some e =>
    simp only
    cases hv : u.view with
    | edit i =>
      simp only
      by_cases hi : i = id
      · subst hi
        rw [if_pos rfl]
        rcases routeRemoved_cases (nd := nd) (lim := lim) { u with editing := u.editing.remove i, view := .edit i } e with
          ⟨v, s, h1, h2, h3⟩ | ⟨h1, h2, h3⟩
        · rw [h1, Res.bind_ok, h2]
          exact Or.inl ⟨_, rfl, Or.inr ⟨e, rfl, rfl, h3⟩⟩
        · rw [h1]
          exact Or.inr ⟨rfl, e, rfl, rfl, h2, h3⟩
      · rw [if_neg hi]
        exact Or.inl ⟨_, rfl, Or.inl ⟨rfl, fun h => by simp at h; exact absurd h hi⟩⟩
    | graph => exact Or.inl ⟨_, rfl, Or.inl ⟨rfl, fun h => by simp at h⟩⟩
    | artifact n => exact Or.inl ⟨_, rfl, Or.inl ⟨rfl, fun h => by simp at h⟩⟩
    | notFound => exact Or.inl ⟨_, rfl, Or.inl ⟨rfl, fun h => by simp at h⟩⟩

theorem lands_not_edit {p : Proj} {e : Edit} {v : View} (h : Lands p e v) : ∀ i, v ≠ .edit i := by
  rintro i rfl
  rcases h with ⟨_, _, _, _, _, h⟩ | ⟨_, _, _, _, h⟩ | ⟨_, _, h⟩ <;> simp at h

theorem completeAll_cases (ids : List Nat) : ∀ (u : UI), IMap.Nodup u.editing →
    (∃ u', u.completeAll nd lim ids = .ok u' ∧
      ((u'.view = u.view ∧ ∀ i ∈ ids, u.view = .edit i → u.editing.get? i = none) ∨
       ∃ i ∈ ids, ∃ e, u.view = .edit i ∧ u.editing.get? i = some e ∧ Lands u.shared e u'.view)) ∨
    (u.completeAll nd lim ids = .panic ∧ ∃ i ∈ ids, ∃ e, u.view = .edit i ∧ u.editing.get? i = some e ∧
      Name.fromStr e.name = .panic ∧ ∀ q ∈ u.shared, some q.2.id ≠ e.originalId) := by
  induction ids with
  | nil => intro u _; exact Or.inl ⟨u, rfl, Or.inl ⟨rfl, by simp⟩⟩
  | cons i ids ih =>
    intro u hn
    unfold UI.completeAll
    rcases completeEditing_cases (nd := nd) (lim := lim) u i with ⟨u1, h1, hv⟩ | ⟨h1, e, h2, h3, h4⟩
    · rw [h1, Res.bind_ok]
      obtain ⟨v, hu1⟩ := completeEditing_ok h1
      have hed : u1.editing = u.editing.remove i := by rw [hu1]
      have hsh : u1.shared = u.shared := by rw [hu1]
      have hn1 : IMap.Nodup u1.editing := by rw [hed]; exact IMap.nodup_remove hn i
      have hget : ∀ k, u1.editing.get? k = if i = k then none else u.editing.get? k := by
        intro k; rw [hed, get?_remove_nat hn]
      rcases hv with ⟨hv, hnone⟩ | ⟨e, hv, he, hl⟩
      · rcases ih u1 hn1 with ⟨u2, h2, h3⟩ | ⟨h2, k, hk, e, h4, h5, h6⟩
        · refine Or.inl ⟨u2, h2, ?_⟩
          rcases h3 with ⟨h3, h4⟩ | ⟨k, hk, e, h4, h5, h6⟩
          · refine Or.inl ⟨h3.trans hv, fun k hk hvk => ?_⟩
            rcases List.mem_cons.1 hk with rfl | hk
            · exact hnone hvk
            · have := h4 k hk (hv.trans hvk)
              rw [hget] at this
              split at this
              · rename_i e; subst e; exact hnone hvk
              · exact this
          · rw [hget] at h5
            split at h5
            · simp at h5
            · exact Or.inr ⟨k, by simp [hk], e, hv.symm.trans h4, h5, by rw [← hsh]; exact h6⟩
        · rw [hget] at h5
          split at h5
          · simp at h5
          · exact Or.inr ⟨h2, k, by simp [hk], e, hv.symm.trans h4, h5, by rw [← hsh]; exact h6⟩
      · have hne := lands_not_edit hl
        rcases ih u1 hn1 with ⟨u2, h2, h3⟩ | ⟨h2, k, hk, e, h4, h5, h6⟩
        · refine Or.inl ⟨u2, h2, Or.inr ⟨i, by simp, e, hv, he, ?_⟩⟩
          rcases h3 with ⟨h3, h4⟩ | ⟨k, hk, e, h4, h5, h6⟩
          · rw [h3]; exact hl
          · exact absurd h4 (hne k)
        · exact absurd h4 (hne k)
    · rw [h1]
      exact Or.inr ⟨rfl, i, by simp, e, h2, h3, h4⟩

end Web
end Art
