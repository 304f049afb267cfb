import Verif.Spec.Page
import Verif.Lemmas.FrontendHist
import Verif.Lemmas.FrontendOrigin
import Verif.Props.Frontend
import Verif.Props.View

/-! Helper lemmas about the picture that is on the screen. -/

namespace Art
namespace Web

variable {X : Type} {K : Painter X} {nd : Char → Bool} {lim : Nat}

/-! ## messages -/

/-- The ids of the messages are used and different. -/
structure ErrInv (u : UI) : Prop where
  nodup : IMap.Nodup u.errors
  lt : ∀ x ∈ u.errors, x.1 < u.nextId

theorem errInv_fresh {u : UI} (h : ErrInv u) (l : Log) : u.errors.insert u.nextId l = u.errors ++ [(u.nextId, l)] := by
  refine IMap.insert_of_not_contains ?_ l
  rw [Bool.eq_false_iff, ne_eq, IMap.contains_iff]
  rintro ⟨x, hx, hk⟩
  have := h.lt x hx
  have e : x.1 = u.nextId := hk
  omega

theorem pushLogs_append {u : UI} (h : ErrInv u) (ls : List Log) :
    ErrInv (u.pushLogs ls) ∧ ∃ new, (u.pushLogs ls).errors = u.errors ++ new ∧ new.length = ls.length ∧ ∀ x ∈ new, u.nextId ≤ x.1 := by
  induction ls generalizing u with
  | nil => exact ⟨h, [], by simp [UI.pushLogs], rfl, by simp⟩
  | cons l ls ih =>
    rw [pushLogs_cons, errInv_fresh h]
    obtain ⟨h1, new, h2, h3, h4⟩ := ih (u := { u with errors := u.errors ++ [(u.nextId, l)], nextId := u.nextId + 1 })
      ⟨by rw [← errInv_fresh h]; exact IMap.nodup_insert h.nodup _ _, fun x hx => by
        rcases List.mem_append.1 hx with hx | hx
        · exact Nat.lt_succ_of_lt (h.lt x hx)
        · rw [List.mem_singleton] at hx; subst hx; exact Nat.lt_succ_self _⟩
    refine ⟨h1, (u.nextId, l) :: new, ?_, by simp [h3], ?_⟩
    · rw [h2]; simp
    · intro x hx
      rcases List.mem_cons.1 hx with rfl | hx
      · exact le_refl _
      · exact Nat.le_of_succ_le (h4 x hx)

theorem errInv_removeAll {u : UI} (ids : List Nat) (h : ErrInv u) : ErrInv (u.clearLogs ids) := by
  constructor
  · exact nodup_removeAll ids h.nodup
  · intro x hx
    have : ∀ (ids : List Nat) (m : IMap Nat Log), IMap.Nodup m → x ∈ ids.foldl (fun m i => m.remove i) m → x ∈ m := by
      intro ids
      induction ids with
      | nil => intro m _ h; exact h
      | cons i ids ih =>
        intro m hm h
        exact ((IMap.mem_remove hm i x).1 (ih _ (IMap.nodup_remove hm i) h)).1
    exact h.lt x (this ids _ h.nodup hx)

theorem errInv_of {u u' : UI} (h : ErrInv u) (he : u'.errors = u.errors) (hn : u.nextId ≤ u'.nextId) : ErrInv u' :=
  ⟨by rw [he]; exact h.nodup, fun x hx => lt_of_lt_of_le (h.lt x (by rw [← he]; exact hx)) hn⟩

/-- What a message does to the open messages. -/
theorem update_errInv {u u' : UI} {m : Msg} {sent : List Req} (h : u.update nd lim m = .ok (u', sent)) (hi : ErrInv u) : ErrInv u' := by
  cases m with
  | setView v => simp only [UI.update, Res.ok.injEq, Prod.mk.injEq] at h; obtain ⟨rfl, rfl⟩ := h; exact errInv_of hi rfl (le_refl _)
  | nav => simp only [UI.update, Res.ok.injEq, Prod.mk.injEq] at h; obtain ⟨rfl, rfl⟩ := h; exact hi
  | recvInitial p t =>
    simp only [UI.update] at h
    split at h
    · simp only [Res.ok.injEq, Prod.mk.injEq] at h; obtain ⟨rfl, rfl⟩ := h; exact errInv_of hi rfl (le_refl _)
    · have hi' : ErrInv { u with shared := p.getD u.shared, webType := t, fetching := false } := errInv_of hi rfl (le_refl _)
      rcases startFetchProject_cases { u with shared := p.getD u.shared, webType := t, fetching := false } false with
        ⟨_, l, e⟩ | ⟨_, _, e⟩ <;> rw [e] at h <;> simp only [Res.ok.injEq, Prod.mk.injEq] at h <;> obtain ⟨rfl, rfl⟩ := h
      · exact (pushLogs_append hi' _).1
      · exact errInv_of hi' rfl (Nat.le_succ _)
  | fetchProject r =>
    simp only [UI.update] at h
    rcases startFetchProject_cases u r with ⟨_, l, e⟩ | ⟨_, _, e⟩ <;> rw [e] at h <;>
      simp only [Res.ok.injEq, Prod.mk.injEq] at h <;> obtain ⟨rfl, rfl⟩ := h
    · exact (pushLogs_append hi _).1
    · exact errInv_of hi rfl (Nat.le_succ _)
  | sendUpdate ids =>
    rcases startSendUpdate_ok h with ⟨_, rfl, _⟩ | ⟨_, ops, _, _, rfl⟩
    · exact (pushLogs_append hi _).1
    · exact errInv_of hi rfl (Nat.le_succ _)
  | recvProject jid p =>
    simp only [UI.update, Res.bind_eq_ok, Res.pure_def, Res.ok.injEq, Prod.mk.injEq] at h
    obtain ⟨u1, h1, rfl, rfl⟩ := h
    rcases recvProject_ok h1 with ⟨_, rfl⟩ | ⟨_, _, _, rfl⟩ <;> exact errInv_of hi rfl (le_refl _)
  | recvError logs =>
    simp only [UI.update, Res.ok.injEq, Prod.mk.injEq] at h; obtain ⟨rfl, rfl⟩ := h
    exact errInv_of (pushLogs_append hi logs).1 rfl (le_refl _)
  | pushLogs logs =>
    simp only [UI.update, Res.ok.injEq, Prod.mk.injEq] at h; obtain ⟨rfl, rfl⟩ := h; exact (pushLogs_append hi logs).1
  | clearLogs ids => simp only [UI.update, Res.ok.injEq, Prod.mk.injEq] at h; obtain ⟨rfl, rfl⟩ := h; exact errInv_removeAll ids hi
  | clearAllLogs =>
    simp only [UI.update, Res.ok.injEq, Prod.mk.injEq] at h; obtain ⟨rfl, rfl⟩ := h; exact ⟨IMap.nodup_nil, by simp⟩
  | editArtifact id f =>
    simp only [UI.update, Res.bind_eq_ok, Res.pure_def, Res.ok.injEq, Prod.mk.injEq] at h
    obtain ⟨u1, h1, rfl, rfl⟩ := h
    obtain ⟨_, _, _, _, rfl⟩ := editArtifact_ok h1
    exact errInv_of hi rfl (le_refl _)
  | startNew id => simp only [UI.update, Res.ok.injEq, Prod.mk.injEq] at h; obtain ⟨rfl, rfl⟩ := h; exact errInv_of hi rfl (le_refl _)
  | startCurrent id =>
    simp only [UI.update, Res.bind_eq_ok, Res.pure_def, Res.ok.injEq, Prod.mk.injEq] at h
    obtain ⟨u1, h1, rfl, rfl⟩ := h
    obtain ⟨_, _, _, _, rfl⟩ := startCurrent_ok h1
    exact errInv_of hi rfl (le_refl _)
  | stopEdit id =>
    simp only [UI.update, Res.bind_eq_ok, Res.pure_def, Res.ok.injEq, Prod.mk.injEq] at h
    obtain ⟨u1, h1, rfl, rfl⟩ := h
    obtain ⟨_, rfl⟩ := completeEditing_ok h1
    exact errInv_of hi rfl (le_refl _)

/-! ## the picture and the state -/

/-- Two states that agree in everything a control of the page can be about; the first may lack messages. -/
structure Alike (u v : UI) : Prop where
  view : u.view = v.view
  shared : u.shared = v.shared
  editing : u.editing = v.editing
  errors : ∃ new, v.errors = u.errors ++ new

theorem Alike.refl (u : UI) : Alike u u := ⟨rfl, rfl, rfl, [], by simp⟩

theorem Alike.trans {u v w : UI} (h : Alike u v) (h' : Alike v w) : Alike u w := by
  obtain ⟨new, e⟩ := h.errors
  obtain ⟨new', e'⟩ := h'.errors
  exact ⟨h.view.trans h'.view, h.shared.trans h'.shared, h.editing.trans h'.editing, new ++ new', by rw [e', e, List.append_assoc]⟩

/-- A message that does not ask for a new picture changes nothing that is in the picture, except that messages are added. -/
theorem quiet_alike {u u' : UI} {m : Msg} {sent : List Req} (h : u.update nd lim m = .ok (u', sent)) (hi : ErrInv u)
    (hr : m.renders u = false) : Alike u u' := by
  have push : ∀ l, Alike u (u.pushLogs [l]) := fun l => by
    obtain ⟨-, new, e, -⟩ := pushLogs_append hi [l]
    exact ⟨by simp, by simp, by simp, new, e⟩
  cases m with
  | fetchProject r =>
    simp only [UI.update] at h
    rcases startFetchProject_cases u r with ⟨_, l, e⟩ | ⟨_, _, e⟩ <;> rw [e] at h <;>
      simp only [Res.ok.injEq, Prod.mk.injEq] at h <;> obtain ⟨rfl, rfl⟩ := h
    · exact push l
    · exact ⟨rfl, rfl, rfl, [], by simp⟩
  | sendUpdate ids =>
    rcases startSendUpdate_ok h with ⟨_, rfl, _⟩ | ⟨hf, ops, _, _, rfl⟩
    · exact push _
    · simp [Msg.renders, hf] at hr
  | _ => simp [Msg.renders] at hr

/-- What is on the screen is the picture of a state like the current one. -/
def Pic (K : Painter X) (p : Page X) : Prop := ∃ u, Alike u p.world.ui ∧ K.view u p.rest p.nav = some p.shown

theorem paint_ok {w : World} {x : X} {n : Nav} {p : Page X} (h : K.paint w x n = .ok p) :
    p.world = w ∧ p.rest = x ∧ p.nav = n ∧ K.view w.ui x n = some p.shown := by
  unfold Painter.paint at h
  cases hv : K.view w.ui x n with
  | none => rw [hv] at h; cases h
  | some l => rw [hv] at h; cases h; exact ⟨rfl, rfl, rfl, rfl⟩

theorem paint_pic {w : World} {x : X} {n : Nav} {p : Page X} (h : K.paint w x n = .ok p) : Pic K p := by
  obtain ⟨rfl, rfl, rfl, e⟩ := paint_ok h
  exact ⟨_, Alike.refl _, e⟩

theorem handle_ok {p p' : Page X} {x : X} {m : Msg} (h : K.handle nd lim p x m = .ok p') :
    ∃ r, p.world.ui.update nd lim m = .ok r ∧ p'.world = p.world.after r ∧ p'.rest = x ∧ p'.nav = p.nav ∧
      ((m.renders p.world.ui = true ∧ K.view r.1 x p.nav = some p'.shown) ∨ (m.renders p.world.ui = false ∧ p'.shown = p.shown)) := by
  unfold Painter.handle at h
  obtain ⟨r, hr, h⟩ := Res.bind_eq_ok.1 h
  refine ⟨r, hr, ?_⟩
  split at h
  · rename_i hm
    obtain ⟨e1, e2, e3, e4⟩ := paint_ok h
    exact ⟨e1, e2, e3, Or.inl ⟨hm, e4⟩⟩
  · rename_i hm
    have := Res.ok.inj h
    subst this
    exact ⟨rfl, rfl, rfl, Or.inr ⟨by simpa using hm, rfl⟩⟩

theorem batch_ok {p p' : Page X} {m : Nat → Msg} (h : K.batch nd lim p m = .ok p') :
    ∃ v r, View.fromHash nd lim (hashEdit p.world.ui.nextId) = .ok v ∧
      UI.update nd lim { p.world.ui with nextId := p.world.ui.nextId + 1 } (m p.world.ui.nextId) = .ok r ∧
      p'.world = { p.world with ui := { r.1 with view := v }, outstanding := p.world.outstanding ++ r.2 } ∧ p'.rest = p.rest ∧
      p'.nav = p.nav ∧ K.view { r.1 with view := v } p.rest p.nav = some p'.shown := by
  unfold Painter.batch at h
  simp only at h
  obtain ⟨v, hv, h⟩ := Res.bind_eq_ok.1 h
  obtain ⟨r, hr, h⟩ := Res.bind_eq_ok.1 h
  obtain ⟨r', hr', h⟩ := Res.bind_eq_ok.1 h
  simp only [UI.update, Res.ok.injEq] at hr'
  subst hr'
  obtain ⟨e1, e2, e3, e4⟩ := paint_ok h
  exact ⟨v, r, hv, hr, by rw [e1]; simp, e2, e3, e4⟩

/-! ## what is in a picture -/

theorem view_some {u : UI} {x : X} {n : Nav} {l : List Elem} (h : K.view u x n = some l) : ∃ b, K.body u x n = some b ∧
    l = navBar ++ navExtra u n ++ K.errorPane u ++ K.editingPane u n ++ K.searchPane u x n ++ b := by
  unfold Painter.view at h
  obtain ⟨b, hb, e⟩ := Option.map_eq_some_iff.1 h
  exact ⟨b, hb, e.symm⟩

theorem errorPane_eq (u : UI) : K.errorPane u = if u.errors = [] then [] else
    .button c!"close-err-all" (.msg .clearAllLogs) :: u.errors.flatMap K.errorLog := by
  unfold Painter.errorPane
  cases u.errors <;> simp

/-- The acts that the elements of a picture offer. -/
inductive Offered (u : UI) (n : Nav) : Act → Prop
  | nav (m) : Offered u n (.nav m)
  | create : Offered u n .create
  | reload : Offered u n (.msg (.fetchProject true))
  | graph : Offered u n (.go hashGraph)
  | clearAll : Offered u n (.msg .clearAllLogs)
  | clear (x) : x ∈ u.errors → Offered u n (.msg (.clearLogs [x.1]))
  | toEdit (x) : x ∈ u.editing → Offered u n (.go (hashEdit x.1))
  | toArt (x) : x ∈ u.shared → Offered u n (.go x.1.raw)
  | edit (m a) : u.view = .artifact m → u.shared.get? m = some a → Offered u n .edit
  | save (id e) : u.view = .edit id → u.editing.get? id = some e → Offered u n (.msg (.sendUpdate [id]))
  | cancel (id e) : u.view = .edit id → u.editing.get? id = some e → Offered u n (.msg (.stopEdit id))
  | field (id e f e') : u.view = .edit id → u.editing.get? id = some e → e.set f = some e' → Offered u n (.msg (.editArtifact id f))

theorem form_offers {u : UI} {n : Nav} {id : Nat} {e : Edit} {t : Str} (hv : u.view = .edit id) (he : u.editing.get? id = some e)
    {x : Elem} (hx : x ∈ formElems id e t) {a : Act} (ha : x.Offers a) : Offered u n a := by
  unfold formElems at hx
  simp only [List.mem_append, List.mem_cons, List.mem_flatMap, List.not_mem_nil, or_false] at hx
  rcases hx with ((rfl | rfl | rfl | rfl) | ⟨y, hy, hx⟩) | rfl | rfl | rfl | rfl
  · cases ha; exact .save id e hv he
  · cases ha; exact .cancel id e hv he
  · cases ha; exact .field id e _ _ hv he rfl
  · cases ha; exact .field id e _ _ hv he rfl
  · have hlt : y.2 < e.partof.length := by
      obtain ⟨h1, h2, -⟩ := List.mem_zipIdx (x := y.1) (i := y.2) hy
      omega
    unfold partofRow at hx
    simp only [List.mem_cons, List.not_mem_nil, or_false] at hx
    rcases hx with rfl | rfl
    · cases ha; exact .field id e _ _ hv he (by unfold Edit.set; exact if_pos hlt)
    · cases ha; exact .field id e _ _ hv he (by unfold Edit.set; exact if_pos hlt)
  · cases ha; exact .field id e _ _ hv he rfl
  · cases ha; exact .field id e _ _ hv he rfl
  · cases ha; exact .field id e _ _ hv he rfl
  · cases ha

theorem view_offers {u : UI} {x : X} {n : Nav} {l : List Elem} (h : K.view u x n = some l) {e : Elem} (he : e ∈ l) {a : Act}
    (ha : e.Offers a) : Offered u n a := by
  obtain ⟨b, hb, rfl⟩ := view_some h
  simp only [List.mem_append] at he
  rcases he with ((((he | he) | he) | he) | he) | he
  · unfold navBar at he
    simp only [List.mem_cons, List.not_mem_nil, or_false] at he
    rcases he with rfl | rfl | rfl | rfl | rfl | rfl <;> cases ha <;> constructor
  · unfold navExtra at he
    split at he
    · rw [List.mem_singleton] at he; subst he; cases ha; constructor
    · simp at he
  · rw [errorPane_eq] at he
    split at he
    · simp at he
    · rcases List.mem_cons.1 he with rfl | he
      · cases ha; constructor
      · obtain ⟨y, hy, he⟩ := List.mem_flatMap.1 he
        unfold Painter.errorLog at he
        simp only [List.mem_cons, List.not_mem_nil, or_false] at he
        rcases he with rfl | rfl
        · cases ha; exact .clear y hy
        · split at ha <;> cases ha
  · unfold Painter.editingPane at he
    split at he
    · rcases List.mem_cons.1 he with rfl | he
      · cases ha; constructor
      · split at he
        · obtain ⟨y, hy, rfl⟩ := List.mem_map.1 he
          cases ha
          exact .toEdit y (List.mem_filter.1 hy).1
        · unfold badPattern at he
          rw [List.mem_singleton] at he; subst he; cases ha
    · simp at he
  · unfold Painter.searchPane at he
    split at he
    · rcases List.mem_cons.1 he with rfl | he
      · cases ha; constructor
      · split at he
        · obtain ⟨y, hy, rfl⟩ := List.mem_map.1 he
          cases ha
          obtain ⟨z, hz, rfl⟩ := List.mem_map.1 (List.mem_filter.1 hy).1
          exact .toArt z hz
        · unfold badPattern at he
          rw [List.mem_singleton] at he; subst he; cases ha
    · simp at he
  · unfold Painter.body at hb
    split at hb
    · unfold Painter.graphPage at hb
      split at hb
      · cases hb
        unfold badPattern at he
        rw [List.mem_singleton] at he; subst he; cases ha
      · obtain ⟨s, -, rfl⟩ := Option.map_eq_some_iff.1 hb
        rw [List.mem_singleton] at he; subst he; cases ha
    · rename_i m hv
      unfold Painter.artifactPage at hb
      split at hb
      · rename_i art hart
        unfold Painter.existing at hb
        simp only [Option.bind_eq_bind, Option.bind_eq_some_iff, Option.pure_def, Option.some.injEq] at hb
        obtain ⟨g, -, t, -, rfl⟩ := hb
        simp only [List.mem_cons, List.not_mem_nil, or_false] at he
        rcases he with rfl | rfl | rfl | rfl | rfl | rfl | rfl | rfl <;> cases ha
        exact .edit m art hv hart
      · cases hb
        rw [List.mem_singleton] at he; subst he; cases ha
    · rename_i id hv
      unfold Painter.editPage at hb
      split at hb
      · cases hb
        rw [List.mem_singleton] at he; subst he; cases ha
      · rename_i ed hed
        obtain ⟨t, -, rfl⟩ := Option.map_eq_some_iff.1 hb
        exact form_offers hv hed he ha
    · cases hb
      rw [List.mem_singleton] at he; subst he; cases ha

theorem Offered.alike {u v : UI} {n : Nav} {a : Act} (h : Alike u v) (ha : Offered u n a) : Offered v n a := by
  obtain ⟨new, he⟩ := h.errors
  cases ha with
  | nav m => exact .nav m
  | create => exact .create
  | reload => exact .reload
  | graph => exact .graph
  | clearAll => exact .clearAll
  | clear x hx => exact .clear x (by rw [he]; exact List.mem_append_left _ hx)
  | toEdit x hx => exact .toEdit x (h.editing ▸ hx)
  | toArt x hx => exact .toArt x (h.shared ▸ hx)
  | edit m a h1 h2 => exact .edit m a (h.view ▸ h1) (h.shared ▸ h2)
  | save id e h1 h2 => exact .save id e (h.view ▸ h1) (h.editing ▸ h2)
  | cancel id e h1 h2 => exact .cancel id e (h.view ▸ h1) (h.editing ▸ h2)
  | field id e f e' h1 h2 h3 => exact .field id e f e' (h.view ▸ h1) (h.editing ▸ h2) h3

/-! ## histories -/

/-- The invariant of all histories of the page. -/
structure PInv (K : Painter X) (p : Page X) : Prop where
  pic : Pic K p
  errs : ErrInv p.world.ui
  batch : p.world.batch = []

theorem PInv.offered {p : Page X} (h : PInv K p) {e : Elem} (he : e ∈ p.shown) {a : Act} (ha : e.Offers a) :
    Offered p.world.ui p.nav a := by
  obtain ⟨u, hu, hv⟩ := h.pic
  exact (view_offers hv he ha).alike hu

theorem handle_inv {p p' : Page X} {x : X} {m : Msg} (hp : PInv K p) (hx : m.renders p.world.ui = false → x = p.rest)
    (h : K.handle nd lim p x m = .ok p') : PInv K p' := by
  obtain ⟨r, hr, hw, hrest, hnav, hs⟩ := handle_ok h
  have herr : ErrInv r.1 := update_errInv (u' := r.1) (sent := r.2) hr hp.errs
  refine ⟨?_, by rw [hw]; exact herr, by rw [hw]; exact hp.batch⟩
  rcases hs with ⟨_, hs⟩ | ⟨hq, hs⟩
  · exact ⟨r.1, by rw [hw]; exact Alike.refl _, by rw [hrest, hnav]; exact hs⟩
  · obtain ⟨u, hu, hv⟩ := hp.pic
    have := quiet_alike (u' := r.1) (sent := r.2) hr hp.errs hq
    refine ⟨u, by rw [hw]; exact hu.trans this, ?_⟩
    rw [hrest, hnav, hs, hx hq]; exact hv

theorem perform_inv {p p' : Page X} {a : Act} (hp : PInv K p) (h : K.perform nd lim p a = .ok p') : PInv K p' := by
  cases a with
  | msg m => exact handle_inv hp (fun _ => rfl) h
  | nav n =>
    obtain ⟨e1, e2, e3, e4⟩ := paint_ok (h : K.paint p.world p.rest (p.nav.set n) = .ok p')
    exact ⟨paint_pic h, by rw [e1]; exact hp.errs, by rw [e1]; exact hp.batch⟩
  | go hash =>
    obtain ⟨v, _, h⟩ := Res.bind_eq_ok.1 (h : (View.fromHash nd lim hash >>= fun v => K.handle nd lim p p.rest (.setView v)) = .ok p')
    exact handle_inv hp (fun _ => rfl) h
  | create =>
    obtain ⟨v, r, _, hr, hw, h1, h2, h3⟩ := batch_ok (h : K.batch nd lim p .startNew = .ok p')
    refine ⟨⟨_, Alike.refl _, by rw [hw, h1, h2]; exact h3⟩, ?_, by rw [hw]; exact hp.batch⟩
    rw [hw]
    have : ErrInv r.1 := update_errInv (u' := r.1) (sent := r.2) hr (errInv_of hp.errs rfl (Nat.le_succ _))
    exact errInv_of this rfl (le_refl _)
  | edit =>
    obtain ⟨v, r, _, hr, hw, h1, h2, h3⟩ := batch_ok (h : K.batch nd lim p .startCurrent = .ok p')
    refine ⟨⟨_, Alike.refl _, by rw [hw, h1, h2]; exact h3⟩, ?_, by rw [hw]; exact hp.batch⟩
    rw [hw]
    have : ErrInv r.1 := update_errInv (u' := r.1) (sent := r.2) hr (errInv_of hp.errs rfl (Nat.le_succ _))
    exact errInv_of this rfl (le_refl _)

theorem pstep_inv {p p' : Page X} {ev : PEvent} (hp : PInv K p) (h : PStep K nd lim p ev p') : PInv K p' := by
  cases h with
  | used _ _ h => exact perform_inv hp h
  | address h => exact perform_inv hp h
  | response _ _ => exact ⟨hp.pic, hp.errs, hp.batch⟩
  | @delivered m ms x _ ha hx h =>
    refine handle_inv (p := { p with world := { p.world with arrived := ms } }) ⟨hp.pic, hp.errs, hp.batch⟩ (fun hr => hx ?_) h
    cases m <;> simp [Msg.renders] at hr <;> rfl

theorem start_inv {ex : Proj} {x : X} {hash : Str} {p : Page X} (h : K.start nd lim ex x hash = .ok p) : PInv K p := by
  unfold Painter.start at h
  obtain ⟨v, _, h⟩ := Res.bind_eq_ok.1 h
  obtain ⟨e1, _⟩ := paint_ok h
  exact ⟨paint_pic h, by rw [e1]; exact ⟨IMap.nodup_nil, by simp [World.init]⟩, by rw [e1]; rfl⟩

theorem pruns_inv {p0 p : Page X} {tr : List PEvent} (h0 : PInv K p0) (h : PRuns K nd lim p0 tr p) : PInv K p := by
  induction h with
  | nil => exact h0
  | snoc _ hs ih => exact pstep_inv ih hs

/-! ## each step is a history of C37 -/

theorem offered_fromPage {u : UI} {n : Nav} {m : Msg} (h : Offered u n (.msg m)) : FromPage nd lim m := by
  cases h <;> constructor

theorem update_nav_ok (u : UI) : u.update nd lim .nav = .ok (u, []) := rfl

theorem world_eta (w : World) (h : w.batch = []) : { w with batch := [] } = w := by
  cases w; cases h; rfl

theorem batch_runs {p p' : Page X} (hb : p.world.batch = []) {m : Nat → Msg} (hm : m = .startNew ∨ m = .startCurrent)
    (h : K.batch nd lim p m = .ok p') : ∃ evs, Runs nd lim p.world evs p'.world := by
  obtain ⟨v, r, hv, hr, hw, -⟩ := batch_ok h
  have s1 : Step nd lim p.world .click { p.world with ui := { p.world.ui with nextId := p.world.ui.nextId + 1 }, batch := [m p.world.ui.nextId, .setView v] } := by
    rcases hm with rfl | rfl
    · exact .create hb hv
    · exact .edit hb hv
  have s2 := Step.next (nd := nd) (lim := lim)
    (w := { p.world with ui := { p.world.ui with nextId := p.world.ui.nextId + 1 }, batch := [m p.world.ui.nextId, .setView v] }) rfl hr
  have s3 := Step.next (nd := nd) (lim := lim) (m := .setView v) (ms := [])
    (w := { World.after { p.world with ui := { p.world.ui with nextId := p.world.ui.nextId + 1 }, batch := [m p.world.ui.nextId, .setView v] } r with batch := [.setView v] })
    rfl rfl
  have s3' : Step nd lim { World.after { p.world with ui := { p.world.ui with nextId := p.world.ui.nextId + 1 }, batch := [m p.world.ui.nextId, .setView v] } r with batch := [.setView v] }
      (.handled (.setView v) []) p'.world := by
    have e : p'.world = { World.after { World.after { p.world with ui := { p.world.ui with nextId := p.world.ui.nextId + 1 }, batch := [m p.world.ui.nextId, .setView v] } r with batch := [.setView v] } ({ r.1 with view := v }, []) with batch := [] } := by
      rw [hw]
      simp only [World.after, hb, List.append_nil]
    rw [e]
    exact s3
  exact ⟨_, ((Runs.nil _).snoc s1).snoc s2 |>.snoc s3'⟩

theorem perform_runs {p p' : Page X} (hb : p.world.batch = []) {a : Act} (ha : ∀ m, a = .msg m → FromPage nd lim m)
    (h : K.perform nd lim p a = .ok p') : ∃ evs, Runs nd lim p.world evs p'.world := by
  cases a with
  | msg m =>
    obtain ⟨r, hr, hw, -⟩ := handle_ok (h : K.handle nd lim p p.rest m = .ok p')
    exact ⟨_, (Runs.nil _).snoc (by rw [hw]; exact .page hb (ha m rfl) hr)⟩
  | nav n =>
    obtain ⟨e1, -⟩ := paint_ok (h : K.paint p.world p.rest (p.nav.set n) = .ok p')
    exact ⟨[], by rw [e1]; exact .nil _⟩
  | go hash =>
    obtain ⟨v, hv, h⟩ := Res.bind_eq_ok.1 (h : (View.fromHash nd lim hash >>= fun v => K.handle nd lim p p.rest (.setView v)) = .ok p')
    obtain ⟨r, hr, hw, -⟩ := handle_ok h
    exact ⟨_, (Runs.nil _).snoc (by rw [hw]; exact .page hb (.route hv) hr)⟩
  | create => exact batch_runs hb (Or.inl rfl) h
  | edit => exact batch_runs hb (Or.inr rfl) h

theorem pstep_runs {p p' : Page X} {ev : PEvent} (hp : PInv K p) (h : PStep K nd lim p ev p') : ∃ evs, Runs nd lim p.world evs p'.world := by
  cases h with
  | used he ho h => exact perform_runs hp.batch (fun m e => offered_fromPage (e ▸ hp.offered he ho)) h
  | address h => exact perform_runs hp.batch (fun m e => by cases e) h
  | response ho ha => exact ⟨_, (Runs.nil _).snoc (.response ho ha)⟩
  | @delivered m ms x _ ha hx h =>
    obtain ⟨r, hr, hw, -⟩ := handle_ok h
    exact ⟨_, (Runs.nil _).snoc (by rw [hw]; exact .deliver hp.batch ha hr)⟩

end Web
end Art
