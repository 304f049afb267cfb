import Verif.Lemmas.PageShow

/-!
# C59: what the web page shows and what its controls do
All theorems are for every painter (`Painter`: how texts and graphs are drawn), every first project and address and every history of
clicks, typing, changes of the address and responses (`Reached`).
-/

namespace Art
namespace Web

variable {X : Type} {K : Painter X} {nd : Char → Bool} {lim : Nat} {p p' : Page X}

theorem reached_inv (h : Reached K nd lim p) : PInv K p := by
  obtain ⟨ex, x, hash, p0, tr, h0, h⟩ := h
  exact pruns_inv (start_inv h0) h

theorem Reached.step (h : Reached K nd lim p) {ev : PEvent} (hs : PStep K nd lim p ev p') : Reached K nd lim p' := by
  obtain ⟨ex, x, hash, p0, tr, h0, h⟩ := h
  exact ⟨ex, x, hash, p0, _, h0, h.snoc hs⟩

/-- Every history of the page is one of the histories of C37: what is proved there about edits and requests holds for whatever a user
can do with what is on the screen. Nothing is left half done when the next event comes. -/
theorem C59_refines (h : Reached K nd lim p) :
    ∃ ex v tr, Runs nd lim (World.init ex v) tr p.world ∧ p.world.batch = [] := by
  obtain ⟨ex, x, hash, p0, tr, h0, h⟩ := h
  have hi := start_inv h0
  unfold Painter.start at h0
  obtain ⟨v, _, h0⟩ := Res.bind_eq_ok.1 h0
  obtain ⟨e1, _⟩ := paint_ok h0
  refine ⟨ex, v, ?_⟩
  have : ∃ tr, Runs nd lim p0.world tr p.world := by
    induction h with
    | nil => exact ⟨[], .nil _⟩
    | snoc hr hs ih =>
      obtain ⟨t1, r1⟩ := ih
      obtain ⟨t2, r2⟩ := pstep_runs (pruns_inv hi hr) hs
      exact ⟨_, runs_append r1 r2⟩
  obtain ⟨t, ht⟩ := this
  rw [e1] at ht
  exact ⟨t, ht, (pruns_inv hi h).batch⟩

theorem reached_good (h : Reached K nd lim p) : Good p.world := by
  obtain ⟨ex, v, tr, hr, _⟩ := C59_refines h
  exact good_runs (good_init ex v) hr

/-- What is on the screen is a picture of the present project, the present edits, the present place and the present state of the panes.
Only messages can be missing: the newest ones. -/
theorem C59_picture (h : Reached K nd lim p) : ∃ old new, p.world.ui.errors = old ++ new ∧
    K.view { p.world.ui with errors := old } p.rest p.nav = some p.shown := by
  obtain ⟨u, hu, hv⟩ := (reached_inv h).pic
  obtain ⟨new, hn⟩ := hu.errors
  refine ⟨u.errors, new, hn, ?_⟩
  rw [← hv]
  unfold Painter.view Painter.body Painter.graphPage Painter.artifactPage Painter.editPage Painter.existing navExtra Painter.errorPane
    Painter.editingPane Painter.searchPane
  simp only [hu.view, hu.shared, hu.editing]

/-- The picture is exact after every event except three: a response that is not yet handled, the sync button, and a save while another
request is on its way. -/
theorem C59_exact (h : Reached K nd lim p) {ev : PEvent} (hs : PStep K nd lim p ev p')
    (hr : ∀ q m, ev ≠ .response q m) (hf : ∀ e r, ev ≠ .used e (.msg (.fetchProject r)))
    (hb : ∀ e ids, ev = .used e (.msg (.sendUpdate ids)) → p.world.ui.fetching = false) :
    K.view p'.world.ui p'.rest p'.nav = some p'.shown ∧ ∀ i, ShowsLog p'.shown i ↔ ∃ y ∈ p'.world.ui.errors, y.1 = i := by
  have key : K.view p'.world.ui p'.rest p'.nav = some p'.shown := by
    have fin : ∀ {p : Page X} {x : X} {m : Msg}, K.handle nd lim p x m = .ok p' → m.renders p.world.ui = true →
        K.view p'.world.ui p'.rest p'.nav = some p'.shown := by
      intro p x m hh hm
      obtain ⟨r, -, hw, h1, h2, ⟨-, hv⟩ | ⟨hn, -⟩⟩ := handle_ok hh
      · rw [hw, h1, h2]; exact hv
      · rw [hm] at hn; cases hn
    cases hs with
    | @used e a _ _ _ hp =>
      cases a with
      | msg m =>
        refine fin (hp : K.handle nd lim p p.rest m = .ok p') ?_
        cases m <;> try rfl
        · exact absurd rfl (hf e _)
        · simp [Msg.renders, hb e _ rfl]
      | nav n =>
        obtain ⟨e1, e2, e3, e4⟩ := paint_ok (hp : K.paint p.world p.rest (p.nav.set n) = .ok p')
        rw [e1, e2, e3]; exact e4
      | go hash =>
        obtain ⟨v, _, hp⟩ := Res.bind_eq_ok.1 (hp : (View.fromHash nd lim hash >>= fun v => K.handle nd lim p p.rest (.setView v)) = .ok p')
        exact fin hp rfl
      | create =>
        obtain ⟨v, r, _, _, hw, h1, h2, h3⟩ := batch_ok (hp : K.batch nd lim p .startNew = .ok p')
        rw [hw, h1, h2]; exact h3
      | edit =>
        obtain ⟨v, r, _, _, hw, h1, h2, h3⟩ := batch_ok (hp : K.batch nd lim p .startCurrent = .ok p')
        rw [hw, h1, h2]; exact h3
    | address hp =>
      obtain ⟨v, _, hp⟩ := Res.bind_eq_ok.1 (hp : (View.fromHash nd lim _ >>= fun v => K.handle nd lim p p.rest (.setView v)) = .ok p')
      exact fin hp rfl
    | response => exact absurd rfl (hr _ _)
    | @delivered m ms x _ ha hx hp =>
      refine fin hp ?_
      have := (reached_good h).arr m (by rw [ha]; simp)
      cases m <;> simp [IsRecv] at this <;> rfl
  exact ⟨key, fun i => shows_iff key i⟩

/-- The messages that say why nothing happened are not shown when they are written: the screen stays as it is after sync or save while
a request is on its way, and after sync on a static page. -/
theorem C59_busy_unseen (h : Reached K nd lim p) {e : Elem} {m : Msg} (hs : PStep K nd lim p (.used e (.msg m)) p')
    (hm : (∃ ids, m = .sendUpdate ids ∧ p.world.ui.fetching = true) ∨
      ∃ r, m = .fetchProject r ∧ (p.world.ui.fetching = true ∨ p.world.ui.webType = .static)) :
    p'.shown = p.shown ∧ p'.world.outstanding = p.world.outstanding ∧
    ∃ i, OneMore p.world.ui.errors p'.world.ui.errors i ∧ ¬ ShowsLog p'.shown i := by
  have hi := reached_inv h
  cases hs with
  | used _ _ hp =>
    obtain ⟨r, hr, hw, _, _, hsh⟩ := handle_ok (hp : K.handle nd lim p p.rest m = .ok p')
    have quiet : m.renders p.world.ui = false := by
      rcases hm with ⟨ids, rfl, hf⟩ | ⟨r, rfl, _⟩
      · simp [Msg.renders, hf]
      · rfl
    have hshown : p'.shown = p.shown := by
      rcases hsh with ⟨h1, _⟩ | ⟨_, h1⟩
      · rw [quiet] at h1; cases h1
      · exact h1
    have push : ∃ l, r = (p.world.ui.pushLogs [l], []) := by
      rcases hm with ⟨ids, rfl, hf⟩ | ⟨b, rfl, hf⟩
      · obtain ⟨u', sent⟩ := r
        rcases startSendUpdate_ok hr with ⟨_, rfl, rfl⟩ | ⟨hff, _⟩
        · exact ⟨_, rfl⟩
        · rw [hf] at hff; cases hff
      · simp only [UI.update] at hr
        rcases startFetchProject_cases p.world.ui b with ⟨_, l, e⟩ | ⟨h1, h2, _⟩
        · rw [e] at hr; cases hr; exact ⟨l, rfl⟩
        · rcases hf with hf | hf
          · rw [hf] at h2; cases h2
          · exact absurd hf h1
    obtain ⟨l, rfl⟩ := push
    obtain ⟨u, hu, hv⟩ := hi.pic
    refine ⟨hshown, by rw [hw]; simp [World.after], p.world.ui.nextId, ⟨l, ?_⟩, ?_⟩
    · rw [hw]
      show (p.world.ui.pushLogs [l]).errors = _
      rw [pushLogs_cons]
      exact errInv_fresh hi.errs l
    · rw [hshown, shows_iff hv]
      rintro ⟨y, hy, e⟩
      obtain ⟨new, hn⟩ := hu.errors
      have := hi.errs.lt y (by rw [hn]; exact List.mem_append_left _ hy)
      omega

/-- The button on a message removes this message, from the state and from the screen, and no other. -/
theorem C59_close (h : Reached K nd lim p) {i : Nat} {a : Act} (hs : PStep K nd lim p (.used (.button (c!"close-err-" ++ showNat i) a) a) p') :
    p'.world = { p.world with ui := { p.world.ui with errors := p'.world.ui.errors } } ∧
    (∀ y, y ∈ p'.world.ui.errors ↔ y ∈ p.world.ui.errors ∧ y.1 ≠ i) ∧ ¬ ShowsLog p'.shown i ∧ ∀ j, j ≠ i → ShowsLog p.shown j → ShowsLog p'.shown j := by
  have hi := reached_inv h
  obtain ⟨u, hu, hv⟩ := hi.pic
  have hex : ∀ hf hb, _ := fun hf hb => C59_exact h hs (by intro q m e; cases e) hf hb
  cases hs with
  | used he _ hp =>
    obtain ⟨⟨y, hy, _⟩, rfl⟩ := (log_button hv i a).1 he
    obtain ⟨hv', hsh⟩ := hex (by intro e r h; cases h) (by intro e r h; cases h)
    obtain ⟨r, hr, hw, _, _, _⟩ := handle_ok (hp : K.handle nd lim p p.rest (.clearLogs [i]) = .ok p')
    cases hr
    have herr : ∀ y, y ∈ p'.world.ui.errors ↔ y ∈ p.world.ui.errors ∧ y.1 ≠ i := by
      rw [hw]
      exact fun y => IMap.mem_remove hi.errs.nodup i y
    refine ⟨?_, herr, ?_, ?_⟩
    · rw [hw]
      simp [World.after, UI.clearLogs]
    · rw [hsh]
      rintro ⟨z, hz, rfl⟩
      exact ((herr z).1 hz).2 rfl
    · intro j hj hsj
      rw [hsh]
      obtain ⟨z, hz, rfl⟩ := (shows_iff hv j).1 hsj
      obtain ⟨new, hn⟩ := hu.errors
      exact ⟨z, (herr z).2 ⟨by rw [hn]; exact List.mem_append_left _ hz, hj⟩, rfl⟩

/-- The fields on the screen and their contents: exactly those for the present place, edits and patterns. -/
theorem C59_fields (h : Reached K nd lim p) : fieldsOf p.shown = fieldsWanted p.world.ui p.nav := by
  obtain ⟨u, hu, hv⟩ := (reached_inv h).pic
  rw [view_fields hv, fieldsWanted_congr hu]

/-- The links on the screen, in order: the open edits and then the artifacts that match the patterns, and no others. -/
theorem C59_links (h : Reached K nd lim p) : linksOf p.shown = linksWanted K p.world.ui p.rest p.nav := by
  obtain ⟨u, hu, hv⟩ := (reached_inv h).pic
  rw [view_links hv, linksWanted_congr hu]

theorem typed_nav (u : UI) (n : Nav) {m : NavMsg} {i s : Str}
    (hm : (i = c!"graph-nav-filter" ∧ m = .setGraph s) ∨ (i = c!"editing-search" ∧ m = .setEditing s) ∨ (i = c!"search-input" ∧ m = .setSearch s)) :
    fieldsWanted u (n.set m) = typedInto i s (fieldsWanted u n) := by
  have form : ∀ i : Str, (∀ t, c!"edit-" ++ t ≠ i) →
      typedInto i s (((editOf u.view u.editing).map formFields).getD []) = ((editOf u.view u.editing).map formFields).getD [] := by
    intro i hi
    refine typedInto_other (fun y hy => ?_)
    cases he : editOf u.view u.editing with
    | none => rw [he] at hy; simp at hy
    | some e =>
      rw [he] at hy
      obtain ⟨t, ht⟩ := form_ids (e := e) hy
      rw [ht]; exact hi t
  unfold fieldsWanted
  rw [typedInto_append, typedInto_append, typedInto_append]
  rcases hm with ⟨rfl, rfl⟩ | ⟨rfl, rfl⟩ | ⟨rfl, rfl⟩
  · rw [form _ (by intro t h; simp at h)]
    obtain ⟨a, b, c, d, e⟩ := n
    generalize ((editOf u.view u.editing).map formFields).getD [] = F
    simp only [Nav.set]
    cases u.view <;> cases a <;> cases c <;> simp [typedInto]
  · rw [form _ (by intro t h; simp at h)]
    obtain ⟨a, b, c, d, e⟩ := n
    generalize ((editOf u.view u.editing).map formFields).getD [] = F
    simp only [Nav.set]
    cases u.view <;> cases a <;> cases c <;> simp [typedInto]
  · rw [form _ (by intro t h; simp at h)]
    obtain ⟨a, b, c, d, e⟩ := n
    generalize ((editOf u.view u.editing).map formFields).getD [] = F
    simp only [Nav.set]
    cases u.view <;> cases a <;> cases c <;> simp [typedInto]

theorem typed_form {u : UI} (n : Nav) {id : Nat} {e e' : Edit} {f : Field} {i s : Str} (hv : u.view = .edit id) (he : u.editing.get? id = some e)
    (h : e.set f = some e')
    (hf : (i = c!"edit-name" ∧ f = .name s) ∨ (i = c!"edit-file" ∧ f = .file s) ∨ (i = c!"edit-done" ∧ f = .done s) ∨
      (i = c!"edit-text" ∧ f = .text s) ∨ ∃ k, i = c!"edit-partof-" ++ showNat k ∧ f = .partofUpdate k s) :
    fieldsWanted { u with editing := u.editing.insert id e' } n = typedInto i s (fieldsWanted u n) := by
  have hform := form_set h hf
  have hpre : ∀ t : Str, t = c!"editing-search" ∨ t = c!"search-input" → t ≠ i := by
    rintro t (rfl | rfl) <;> rcases hf with ⟨rfl, _⟩ | ⟨rfl, _⟩ | ⟨rfl, _⟩ | ⟨rfl, _⟩ | ⟨k, rfl, _⟩ <;> simp
  have e1 : editOf u.view u.editing = some e := by unfold editOf; rw [hv]; exact he
  have e2 : editOf u.view (u.editing.insert id e') = some e' := by unfold editOf; rw [hv]; exact (get?_insert_nat _ _ _ _).trans (if_pos rfl)
  unfold fieldsWanted
  rw [typedInto_append, typedInto_append, typedInto_append, e1]
  simp only [e2, Option.map_some, Option.getD_some, hform]
  rw [typedInto_other (a := if n.editingOn then _ else _) (by
      intro y hy; split at hy
      · rw [List.mem_singleton] at hy; subst hy; exact hpre _ (Or.inl rfl)
      · simp at hy),
    typedInto_other (a := if n.searchOn then _ else _) (by
      intro y hy; split at hy
      · rw [List.mem_singleton] at hy; subst hy; exact hpre _ (Or.inr rfl)
      · simp at hy)]
  simp only [hv]
  rfl

/-- Typing into a field that is on the screen changes the content of this field to what was typed, and of no other. -/
theorem C59_typed (h : Reached K nd lim p) {i v s : Str} {f : Str → Act} (hs : PStep K nd lim p (.used (.input i v f) (f s)) p') :
    fieldsOf p'.shown = typedInto i s (fieldsOf p.shown) := by
  obtain ⟨u, hu, hv⟩ := (reached_inv h).pic
  rw [C59_fields h, C59_fields (h.step hs)]
  have hform : ∀ {id : Nat} {e : Edit} {fl : Field}, p.world.ui.view = .edit id → p.world.ui.editing.get? id = some e →
      K.perform nd lim p (.msg (.editArtifact id fl)) = .ok p' →
      ((i = c!"edit-name" ∧ fl = .name s) ∨ (i = c!"edit-file" ∧ fl = .file s) ∨ (i = c!"edit-done" ∧ fl = .done s) ∨
        (i = c!"edit-text" ∧ fl = .text s) ∨ ∃ k, i = c!"edit-partof-" ++ showNat k ∧ fl = .partofUpdate k s) →
      fieldsWanted p'.world.ui p'.nav = typedInto i s (fieldsWanted p.world.ui p.nav) := by
    intro id e fl h1 h2 hp hf
    obtain ⟨r, hr, hw, _, hnav, _⟩ := handle_ok (hp : K.handle nd lim p p.rest _ = .ok p')
    simp only [UI.update, Res.bind_eq_ok, Res.pure_def, Res.ok.injEq] at hr
    obtain ⟨u1, hu1, rfl⟩ := hr
    obtain ⟨e0, e', g1, g2, rfl⟩ := editArtifact_ok hu1
    rw [hw, hnav]
    exact typed_form p.nav h1 g1 g2 hf
  have hnav : ∀ {m : NavMsg}, K.perform nd lim p (.nav m) = .ok p' →
      ((i = c!"graph-nav-filter" ∧ m = .setGraph s) ∨ (i = c!"editing-search" ∧ m = .setEditing s) ∨ (i = c!"search-input" ∧ m = .setSearch s)) →
      fieldsWanted p'.world.ui p'.nav = typedInto i s (fieldsWanted p.world.ui p.nav) := by
    intro m hp hm
    obtain ⟨e1, _, e3, _⟩ := paint_ok (hp : K.paint p.world p.rest (p.nav.set m) = .ok p')
    rw [e1, e3]
    exact typed_nav _ _ hm
  cases hs with
  | used he _ hp =>
    have hf := (view_isField hv he).alike hu
    cases hf with
    | graph h1 => exact hnav hp (Or.inl ⟨rfl, rfl⟩)
    | editing => exact hnav hp (Or.inr (Or.inl ⟨rfl, rfl⟩))
    | search => exact hnav hp (Or.inr (Or.inr ⟨rfl, rfl⟩))
    | name id e h1 h2 => exact hform h1 h2 hp (Or.inl ⟨rfl, rfl⟩)
    | file id e h1 h2 => exact hform h1 h2 hp (Or.inr (Or.inl ⟨rfl, rfl⟩))
    | done id e h1 h2 => exact hform h1 h2 hp (Or.inr (Or.inr (Or.inl ⟨rfl, rfl⟩)))
    | text id e h1 h2 => exact hform h1 h2 hp (Or.inr (Or.inr (Or.inr (Or.inl ⟨rfl, rfl⟩))))
    | partof id e k h1 h2 h3 => exact hform h1 h2 hp (Or.inr (Or.inr (Or.inr (Or.inr ⟨k, rfl, rfl⟩))))

theorem pane_fields (u : UI) (n : Nav) : (c!"search-input" ∈ (fieldsWanted u n).map Prod.fst ↔ n.searchOn = true) ∧
    (c!"editing-search" ∈ (fieldsWanted u n).map Prod.fst ↔ n.editingOn = true) := by
  have hf : ∀ x : Str, (∀ t, x ≠ c!"edit-" ++ t) → x ∉ (((editOf u.view u.editing).map formFields).getD []).map Prod.fst := by
    intro x hx hm
    cases he : editOf u.view u.editing with
    | none => rw [he] at hm; cases hm
    | some e =>
      rw [he] at hm
      obtain ⟨y, hy, rfl⟩ := List.mem_map.1 hm
      simp only [Option.map_some, Option.getD_some, formFields, List.cons_append, List.mem_append, List.mem_cons, List.mem_map, List.not_mem_nil, or_false] at hy
      rcases hy with rfl | ⟨z, _, rfl⟩ | rfl | rfl | rfl
      · exact hx c!"name" rfl
      · exact hx (c!"partof-" ++ showNat z.2) rfl
      · exact hx c!"file" rfl
      · exact hx c!"done" rfl
      · exact hx c!"text" rfl
  have h1 := hf c!"search-input" (by intro t e; cases e)
  have h2 := hf c!"editing-search" (by intro t e; cases e)
  unfold fieldsWanted
  simp only [List.map_append, List.mem_append, h1, h2, or_false]
  cases u.view <;> cases n.searchOn <;> cases n.editingOn <;> simp

/-- The two buttons for the panes show what was hidden and hide what was shown, and leave the other pane and the rest of the fields as they are. -/
theorem C59_panes (h : Reached K nd lim p) {i : Str} {a : Act} (hb : Elem.button i a ∈ navBar) (hs : PStep K nd lim p (.used (.button i a) a) p') :
    (i = c!"search" → (c!"search-input" ∈ (fieldsOf p'.shown).map Prod.fst ↔ c!"search-input" ∉ (fieldsOf p.shown).map Prod.fst) ∧
      (fieldsOf p'.shown).filter (fun x => x.1 ≠ c!"search-input") = (fieldsOf p.shown).filter (fun x => x.1 ≠ c!"search-input")) ∧
    (i = c!"editing" → (c!"editing-search" ∈ (fieldsOf p'.shown).map Prod.fst ↔ c!"editing-search" ∉ (fieldsOf p.shown).map Prod.fst) ∧
      (fieldsOf p'.shown).filter (fun x => x.1 ≠ c!"editing-search") = (fieldsOf p.shown).filter (fun x => x.1 ≠ c!"editing-search")) := by
  rw [C59_fields h, C59_fields (h.step hs)]
  cases hs with
  | used he _ hp =>
    simp only [navBar, List.mem_cons, Elem.button.injEq, List.not_mem_nil, or_false] at hb
    constructor
    · rintro rfl
      obtain rfl : a = .nav .toggleSearch := by simpa using hb
      obtain ⟨e1, _, e3, _⟩ := paint_ok (hp : K.paint p.world p.rest (p.nav.set .toggleSearch) = .ok p')
      rw [e1, e3, (pane_fields _ _).1, (pane_fields _ _).1]
      refine ⟨by simp [Nav.set], ?_⟩
      unfold fieldsWanted
      simp only [List.filter_append, Nav.set]
      congr 2
      rcases Bool.eq_false_or_eq_true p.nav.searchOn with e | e <;> simp [e]
    · rintro rfl
      obtain rfl : a = .nav .toggleEditing := by simpa using hb
      obtain ⟨e1, _, e3, _⟩ := paint_ok (hp : K.paint p.world p.rest (p.nav.set .toggleEditing) = .ok p')
      rw [e1, e3, (pane_fields _ _).2, (pane_fields _ _).2]
      refine ⟨by simp [Nav.set], ?_⟩
      unfold fieldsWanted
      simp only [List.filter_append, Nav.set]
      congr 3
      rcases Bool.eq_false_or_eq_true p.nav.editingOn with e | e <;> simp [e]

/-- The edit button is on the screen exactly if an artifact of the project is shown, and the save button exactly if a form is. Whether
the page may be edited at all does not matter. -/
theorem C59_buttons (h : Reached K nd lim p) :
    (HasButton p.shown c!"edit" ↔ ∃ n a, p.world.ui.view = .artifact n ∧ p.world.ui.shared.get? n = some a) ∧
    (HasButton p.shown c!"edit-save" ↔ ∃ id e, p.world.ui.view = .edit id ∧ p.world.ui.editing.get? id = some e) := by
  obtain ⟨u, hu, hv⟩ := (reached_inv h).pic
  rw [← hu.view, ← hu.shared, ← hu.editing, hasButton_body hv (id := c!"edit") ⟨[], rfl⟩ (by decide),
    hasButton_body hv (id := c!"edit-save") ⟨c!"-save", rfl⟩ (by decide)]
  obtain ⟨b, hb, _⟩ := view_some hv
  simp only [hb, Option.some.injEq, exists_eq_left']
  unfold Painter.body at hb
  split at hb
  · rename_i hw
    rw [hw]
    have : ∀ i, ¬ HasButton b i := by
      unfold Painter.graphPage at hb
      split at hb
      · cases hb; rintro i ⟨a, ha⟩; simp [badPattern] at ha
      · obtain ⟨s, -, rfl⟩ := Option.map_eq_some_iff.1 hb; rintro i ⟨a, ha⟩; simp at ha
    exact ⟨iff_of_false (this _) (by rintro ⟨n, a, h, _⟩; cases h), iff_of_false (this _) (by rintro ⟨n, a, h, _⟩; cases h)⟩
  · rename_i m hw
    rw [hw]
    unfold Painter.artifactPage at hb
    split at hb
    · rename_i a ha
      unfold Painter.existing at hb
      simp only [Option.bind_eq_bind, Option.bind_eq_some_iff, Option.pure_def, Option.some.injEq] at hb
      obtain ⟨g, -, t, -, rfl⟩ := hb
      exact ⟨iff_of_true ⟨.edit, by simp⟩ ⟨m, a, rfl, ha⟩, iff_of_false (by rintro ⟨a, ha⟩; simp at ha) (by rintro ⟨n, a, h, _⟩; cases h)⟩
    · rename_i ha
      cases hb
      exact ⟨iff_of_false (by rintro ⟨a, ha⟩; simp at ha) (by rintro ⟨n, a, h, h'⟩; cases h; rw [ha] at h'; cases h'),
        iff_of_false (by rintro ⟨a, ha⟩; simp at ha) (by rintro ⟨n, a, h, _⟩; cases h)⟩
  · rename_i id hw
    rw [hw]
    unfold Painter.editPage at hb
    split at hb
    · rename_i ha
      cases hb
      exact ⟨iff_of_false (by rintro ⟨a, ha⟩; simp at ha) (by rintro ⟨n, a, h, h'⟩; cases h),
        iff_of_false (by rintro ⟨a, ha⟩; simp at ha) (by rintro ⟨n, a, h, h'⟩; cases h; rw [ha] at h'; cases h')⟩
    · rename_i e he
      obtain ⟨t, -, rfl⟩ := Option.map_eq_some_iff.1 hb
      refine ⟨iff_of_false ?_ (by rintro ⟨n, a, h, h'⟩; cases h), iff_of_true ⟨_, List.mem_append_left _ (List.mem_append_left _ (List.mem_cons_self ..))⟩ ⟨id, e, rfl, he⟩⟩
      rintro ⟨a, ha⟩
      simp [formElems, partofRow] at ha
  · rename_i hw
    rw [hw]
    cases hb
    exact ⟨iff_of_false (by rintro ⟨a, ha⟩; simp at ha) (by rintro ⟨n, a, h, h'⟩; cases h),
      iff_of_false (by rintro ⟨a, ha⟩; simp at ha) (by rintro ⟨n, a, h, h'⟩; cases h)⟩

/-- Following a link that is on the screen leads to what it is labelled with: the page of an artifact of the project, where it can be
edited, or the form of an open edit with its present content. Nothing else changes. -/
theorem C59_follow (h : Reached K nd lim p) (hl : p.world.ui.nextId ≤ lim) {hash t c : Str} {a : Act}
    (hs : PStep K nd lim p (.used (.link hash t c) a) p') :
    (∃ n, (∃ q, (n, q) ∈ p.world.ui.shared) ∧ t = n.raw ∧ p'.world = { p.world with ui := { p.world.ui with view := .artifact n } } ∧
      HasButton p'.shown c!"edit") ∨
    (∃ id e, p.world.ui.editing.get? id = some e ∧ (e.name ≠ [] → t = e.name) ∧
      p'.world = { p.world with ui := { p.world.ui with view := .edit id } } ∧ formFields e ⊆ fieldsOf p'.shown) := by
  have h' := h.step hs
  cases hs with
  | used he ho hp =>
    cases ho
    obtain ⟨v, hv, hp⟩ := Res.bind_eq_ok.1 (hp : (View.fromHash nd lim hash >>= fun v => K.handle nd lim p p.rest (.setView v)) = .ok p')
    obtain ⟨r, hr, hw, _, _, _⟩ := handle_ok hp
    cases hr
    have hw' : p'.world = { p.world with ui := { p.world.ui with view := v } } := by rw [hw]; simp [World.after]
    have hm := mem_linksOf.2 he
    rw [C59_links h] at hm
    unfold linksWanted at hm
    have sub : ∀ {α : Type} {on : Bool} {pt : Except Str (Str → Bool)} {nm : α → Str} {l : List α} {y : α}, y ∈ listed on pt nm l → y ∈ l := by
      intro α on pt nm l y hy
      unfold listed at hy
      split at hy
      · split at hy
        · exact (List.mem_filter.1 hy).1
        · simp at hy
      · simp at hy
    rcases List.mem_append.1 hm with hm | hm
    · obtain ⟨y, hy, e⟩ := List.mem_map.1 hm
      have hy := sub hy
      simp only [Prod.mk.injEq] at e
      obtain ⟨rfl, rfl, _⟩ := e
      have g := reached_good h
      have hg := IMap.get?_of_mem g.edNodup (a := y.1) (b := y.2) hy
      have hlt := g.edLt y.1 (by rw [hg]; rfl)
      rw [C47_edit_link nd lim y.1 (lt_of_lt_of_le hlt hl)] at hv
      cases hv
      refine Or.inr ⟨y.1, y.2, hg, fun hne => if_neg hne, hw', ?_⟩
      rw [C59_fields h', hw']
      unfold fieldsWanted
      refine List.subset_append_of_subset_right _ ?_
      have : editOf (.edit y.1) p.world.ui.editing = some y.2 := hg
      simp only [this, Option.map_some, Option.getD_some]
      exact List.Subset.refl _
    · obtain ⟨y, hy, e⟩ := List.mem_map.1 hm
      have hy := sub hy
      simp only [Prod.mk.injEq] at e
      obtain ⟨rfl, rfl, _⟩ := e
      rw [(C47_artifact_link nd lim y.1).1] at hv
      cases hv
      refine Or.inl ⟨y.1, ⟨y.2, hy⟩, rfl, hw', (C59_buttons h').1.2 ?_⟩
      have hsome : (p.world.ui.shared.get? y.1).isSome = true := IMap.get?_isSome.2 ⟨y, hy, rfl⟩
      obtain ⟨q, hq⟩ := Option.isSome_iff_exists.1 hsome
      exact ⟨y.1, q, by rw [hw'], by rw [hw']; exact hq⟩

/-- The edit button opens a form that shows the artifact; the create button an empty one. -/
theorem C59_open (h : Reached K nd lim p) (hl : p.world.ui.nextId < lim) {e : Elem} {a : Act} (hs : PStep K nd lim p (.used e a) p') :
    (a = .edit → ∃ n q ed, p.world.ui.view = .artifact n ∧ p.world.ui.shared.get? n = some q ∧ p'.world.ui.view = .edit p.world.ui.nextId ∧
      p'.world.ui.editing.get? p.world.ui.nextId = some ed ∧ ed.originalId = some q.id ∧ formFields ed ⊆ fieldsOf p'.shown ∧
      ed.name = q.name.raw ∧ ed.file = q.file ∧ ed.partof = q.partof.map Name.raw ∧ ed.done = q.done.getD [] ∧ ed.text = q.text) ∧
    (a = .create → p'.world.ui.view = .edit p.world.ui.nextId ∧ ∃ ed, p'.world.ui.editing.get? p.world.ui.nextId = some ed ∧
      ed.originalId = none ∧ formFields ed ⊆ fieldsOf p'.shown ∧ ed.name = [] ∧ ed.partof = [] ∧ ed.text = []) := by
  have h' := h.step hs
  have sub : ∀ ed, p'.world.ui.view = .edit p.world.ui.nextId → p'.world.ui.editing.get? p.world.ui.nextId = some ed →
      formFields ed ⊆ fieldsOf p'.shown := by
    intro ed h1 h2
    rw [C59_fields h']
    unfold fieldsWanted
    refine List.subset_append_of_subset_right _ ?_
    have : editOf p'.world.ui.view p'.world.ui.editing = some ed := by unfold editOf; rw [h1]; exact h2
    simp only [this, Option.map_some, Option.getD_some]
    exact List.Subset.refl _
  cases hs with
  | used he ho hp =>
    constructor
    · rintro rfl
      obtain ⟨v, r, hv, hr, hw, _⟩ := batch_ok (hp : K.batch nd lim p .startCurrent = .ok p')
      rw [C47_edit_link nd lim _ hl] at hv
      cases hv
      simp only [UI.update, Res.bind_eq_ok, Res.pure_def, Res.ok.injEq] at hr
      obtain ⟨u1, h1, rfl⟩ := hr
      obtain ⟨n, q, g1, g2, rfl⟩ := startCurrent_ok h1
      have hv' : p'.world.ui.view = .edit p.world.ui.nextId := by rw [hw]
      have he' : p'.world.ui.editing.get? p.world.ui.nextId = some (Edit.fromArtifact q) := by
        rw [hw]; exact (get?_insert_nat _ _ _ _).trans (if_pos rfl)
      exact ⟨n, q, _, g1, g2, hv', he', rfl, sub _ hv' he', rfl, rfl, rfl, rfl, rfl⟩
    · rintro rfl
      obtain ⟨v, r, hv, hr, hw, _⟩ := batch_ok (hp : K.batch nd lim p .startNew = .ok p')
      rw [C47_edit_link nd lim _ hl] at hv
      cases hv
      cases hr
      have hv' : p'.world.ui.view = .edit p.world.ui.nextId := by rw [hw]
      have he' : p'.world.ui.editing.get? p.world.ui.nextId = some Edit.new := by
        rw [hw]; exact (get?_insert_nat _ _ _ _).trans (if_pos rfl)
      exact ⟨hv', _, he', rfl, sub _ hv' he', rfl, rfl, rfl⟩

/-- When a picture cannot be drawn: exactly if the text or graph that it needs cannot be drawn. The panes never fail. -/
theorem C59_draw_iff (u : UI) (x : X) (n : Nav) : K.view u x n = none ↔ CannotDraw K u x n := view_none_iff u x n

/-- Which of the controls on the screen break the page, if everything can be drawn: save with a field that is not a name, and cancel
with a name that cannot be routed. All others work at every time. -/
theorem C59_survives (hd : Draws K) (h : Reached K nd lim p) {e : Elem} {a : Act} (he : e ∈ p.shown) (ha : e.Offers a) :
    K.perform nd lim p a = .panic ↔ ∃ id ed, p.world.ui.view = .edit id ∧ p.world.ui.editing.get? id = some ed ∧
      ((a = .msg (.sendUpdate [id]) ∧ p.world.ui.fetching = false ∧ ¬ FieldsOk ed) ∨
       (a = .msg (.stopEdit id) ∧ Name.fromStr ed.name = .panic ∧ ∀ q ∈ p.world.ui.shared, some q.2.id ≠ ed.originalId)) := by
  have ho := (reached_inv h).offered he ha
  have hroute : ∀ id, View.fromHash nd lim (hashEdit id) ≠ .panic := by
    intro id
    refine C47_ascii nd lim _ (fun c hc => ?_)
    unfold hashEdit at hc
    rcases List.mem_append.1 hc with hc | hc
    · exact (by decide : ∀ c ∈ c!"edit/", c.toNat < 128) c hc
    · have := showNat_digit hc
      simp only [asciiDigit, Bool.and_eq_true, decide_eq_true_eq] at this
      have h9 : c.toNat ≤ '9'.toNat := this.2
      have : '9'.toNat = 57 := rfl
      omega
  have hgo : ∀ hash, View.fromHash nd lim hash ≠ .panic → K.perform nd lim p (.go hash) ≠ .panic := by
    intro hash hh
    show (View.fromHash nd lim hash >>= fun v => K.handle nd lim p p.rest (.setView v)) ≠ .panic
    cases hv : View.fromHash nd lim hash with
    | panic => exact absurd hv hh
    | err e => exact e.elim
    | ok v => rw [Res.bind_ok, ne_eq, hd.handle]; simp [UI.update]
  have hmsg : ∀ m, K.perform nd lim p (.msg m) = .panic ↔ p.world.ui.update nd lim m = .panic := fun m => hd.handle p p.rest m
  have hbatch : ∀ m : Nat → Msg, (∀ i u, u.view = p.world.ui.view → u.shared = p.world.ui.shared → UI.update nd lim u (m i) ≠ .panic) →
      K.batch nd lim p m ≠ .panic := by
    intro m hm
    unfold Painter.batch
    cases hv : View.fromHash nd lim (hashEdit p.world.ui.nextId) with
    | panic => exact absurd hv (hroute _)
    | err e => exact e.elim
    | ok v =>
      cases hu : UI.update nd lim { p.world.ui with nextId := p.world.ui.nextId + 1 } (m p.world.ui.nextId) with
      | panic => exact absurd hu (hm _ _ rfl rfl)
      | err e => exact e.elim
      | ok r =>
        obtain ⟨l, hl⟩ := hd.paint { p.world with ui := { r.1 with view := v }, outstanding := p.world.outstanding ++ r.2 ++ [] } p.rest p.nav
        simp only [hv, hu, Res.bind_ok]
        show K.paint { p.world with ui := { r.1 with view := v }, outstanding := p.world.outstanding ++ r.2 ++ [] } p.rest p.nav ≠ _
        rw [hl]
        simp
  cases ho with
  | nav m =>
    obtain ⟨l, hl⟩ := hd.paint p.world p.rest (p.nav.set m)
    have : K.perform nd lim p (.nav m) = .ok _ := hl
    rw [this]; simp
  | create =>
    exact iff_of_false (hbatch _ (by intro i u _ _; simp [UI.update])) (by rintro ⟨_, _, _, _, ⟨h, _⟩ | ⟨h, _⟩⟩ <;> cases h)
  | reload =>
    rw [hmsg]
    exact iff_of_false (C37_others_never_panic _ _ (Or.inr (Or.inr (Or.inr (Or.inl ⟨_, rfl⟩))))) (by rintro ⟨_, _, _, _, ⟨h, _⟩ | ⟨h, _⟩⟩ <;> cases h)
  | graph =>
    exact iff_of_false (hgo _ (C47_ascii nd lim _ (by decide))) (by rintro ⟨_, _, _, _, ⟨h, _⟩ | ⟨h, _⟩⟩ <;> cases h)
  | clearAll => rw [hmsg]; simp [UI.update]
  | clear x hx => rw [hmsg]; simp [UI.update]
  | toEdit x hx => exact iff_of_false (hgo _ (hroute _)) (by rintro ⟨_, _, _, _, ⟨h, _⟩ | ⟨h, _⟩⟩ <;> cases h)
  | toArt x hx =>
    exact iff_of_false (hgo _ (by rw [(C47_artifact_link nd lim x.1).1]; simp)) (by rintro ⟨_, _, _, _, ⟨h, _⟩ | ⟨h, _⟩⟩ <;> cases h)
  | edit m q h1 h2 =>
    refine iff_of_false (hbatch _ ?_) (by rintro ⟨_, _, _, _, ⟨h, _⟩ | ⟨h, _⟩⟩ <;> cases h)
    intro i u g1 g2 hp
    have := (C37_edit_panics_iff (nd := nd) (lim := lim) u i).1 hp m (g1.trans h1)
    rw [g2, h2] at this; cases this
  | save id ed h1 h2 =>
    rw [hmsg, C37_save_panics_iff]
    constructor
    · rintro ⟨hf, i, hi, hn⟩
      rw [List.mem_singleton] at hi; subst hi
      exact ⟨i, ed, h1, h2, Or.inl ⟨rfl, hf, hn ed h2⟩⟩
    · rintro ⟨i, ed', g1, g2, ⟨g3, hf, hn⟩ | ⟨g3, _⟩⟩
      · rw [h1] at g1; cases g1
        rw [h2] at g2; cases g2
        exact ⟨hf, id, by simp, fun e' he' => by rw [h2] at he'; cases he'; exact hn⟩
      · cases g3
  | cancel id ed h1 h2 =>
    rw [hmsg, (C37_close_panics_iff (nd := nd) (lim := lim) _ (reached_good h).edNodup).1]
    constructor
    · rintro ⟨e', g1, g2, g3⟩
      exact ⟨id, e', g1, g2, Or.inr ⟨rfl, g3⟩⟩
    · rintro ⟨i, ed', g1, g2, ⟨g3, _⟩ | ⟨g3, g4⟩⟩
      · cases g3
      · rw [h1] at g1; cases g1
        exact ⟨ed', h1, g2, g4⟩
  | field id ed f ed' h1 h2 h3 =>
    rw [hmsg]
    refine iff_of_false ?_ (by rintro ⟨_, _, _, _, ⟨h, _⟩ | ⟨h, _⟩⟩ <;> cases h)
    simp [UI.update, UI.editArtifact, h2, h3]

theorem nav_step (hd : Draws K) {e : Elem} {m : NavMsg} (he : e ∈ p.shown) (ho : e.Offers (.nav m)) :
    ∃ p', PStep K nd lim p (.used e (.nav m)) p' ∧ p'.world = p.world ∧ p'.rest = p.rest ∧ p'.nav = p.nav.set m := by
  obtain ⟨l, hl⟩ := hd.paint p.world p.rest (p.nav.set m)
  exact ⟨_, .used he ho hl, rfl, rfl, rfl⟩

theorem bar_shown (h : Reached K nd lim p) {e : Elem} (he : e ∈ navBar) : e ∈ p.shown := by
  obtain ⟨u, hu, hv⟩ := (reached_inv h).pic
  obtain ⟨b, hb, hl⟩ := view_some hv
  rw [hl]
  simp [he]

theorem search_shown (h : Reached K nd lim p) (on : p.nav.searchOn = true) :
    Elem.input c!"search-input" p.nav.search (fun v => .nav (.setSearch v)) ∈ p.shown := by
  obtain ⟨u, hu, hv⟩ := (reached_inv h).pic
  obtain ⟨b, hb, hl⟩ := view_some hv
  rw [hl]
  have : Elem.input c!"search-input" p.nav.search (fun v => .nav (.setSearch v)) ∈ K.searchPane u p.rest p.nav := by
    unfold Painter.searchPane
    rw [if_pos on]
    exact List.mem_cons_self ..
  simp [this]

theorem editing_shown (h : Reached K nd lim p) (on : p.nav.editingOn = true) :
    Elem.input c!"editing-search" p.nav.editing (fun v => .nav (.setEditing v)) ∈ p.shown := by
  obtain ⟨u, hu, hv⟩ := (reached_inv h).pic
  obtain ⟨b, hb, hl⟩ := view_some hv
  rw [hl]
  have : Elem.input c!"editing-search" p.nav.editing (fun v => .nav (.setEditing v)) ∈ K.editingPane u p.nav := by
    unfold Painter.editingPane
    rw [if_pos on]
    exact List.mem_cons_self ..
  simp [this]

theorem Reached.runs (h : Reached K nd lim p) {tr : List PEvent} (hr : PRuns K nd lim p tr p') : Reached K nd lim p' := by
  induction hr with
  | nil => exact h
  | snoc _ hs ih => exact ih.step hs

theorem follow_link (hd : Draws K) {hash t c : Str} {v : View} (hm : Elem.link hash t c ∈ p.shown) (hv : View.fromHash nd lim hash = .ok v) :
    ∃ p', PStep K nd lim p (.used (.link hash t c) (.go hash)) p' ∧ p'.world = { p.world with ui := { p.world.ui with view := v } } := by
  obtain ⟨l, hl⟩ := hd.paint (p.world.after ({ p.world.ui with view := v }, [])) p.rest p.nav
  have : K.perform nd lim p (.go hash) = .ok ⟨p.world.after ({ p.world.ui with view := v }, []), p.rest, p.nav, l⟩ := by
    show (View.fromHash nd lim hash >>= fun v => K.handle nd lim p p.rest (.setView v)) = _
    rw [hv, Res.bind_ok]
    exact hl
  exact ⟨_, .used hm (.link _ _ _) this, by simp [World.after]⟩

/-- Opening a pane and clearing its pattern. -/
theorem clear_pane (hd : Draws K) (h : Reached K nd lim p) {get : Nav → Bool} {pat : Nav → Str} {b : Elem} {tog : NavMsg} {f : Str → NavMsg}
    (hb : b ∈ navBar) (hbo : b.Offers (.nav tog)) (htog : ∀ n : Nav, get n = false → get (n.set tog) = true)
    (hin : ∀ p : Page X, Reached K nd lim p → get p.nav = true → ∃ i ∈ p.shown, i.Offers (.nav (f [])))
    (hf : ∀ n : Nav, get (n.set (f [])) = get n ∧ pat (n.set (f [])) = []) :
    ∃ tr p', PRuns K nd lim p tr p' ∧ tr.length ≤ 2 ∧ (∀ ev ∈ tr, ∃ e a, ev = .used e a) ∧ p'.world = p.world ∧ get p'.nav = true ∧ pat p'.nav = [] := by
  have s1 : ∃ tr p1, PRuns K nd lim p tr p1 ∧ tr.length ≤ 1 ∧ (∀ ev ∈ tr, ∃ e a, ev = .used e a) ∧ p1.world = p.world ∧ get p1.nav = true := by
    cases hon : get p.nav with
    | true => exact ⟨[], p, .nil _, by simp, by simp, rfl, hon⟩
    | false =>
      obtain ⟨p1, hs, hw, _, hn⟩ := nav_step (nd := nd) (lim := lim) hd (bar_shown h hb) hbo
      exact ⟨_, p1, (PRuns.nil p).snoc hs, by simp, by simp, hw, by rw [hn]; exact htog _ hon⟩
  obtain ⟨t1, p1, r1, l1, u1, w1, on1⟩ := s1
  obtain ⟨i, hi, ho⟩ := hin p1 (h.runs r1) on1
  obtain ⟨p2, hs, hw, _, hn⟩ := nav_step (nd := nd) (lim := lim) hd hi ho
  refine ⟨_, p2, r1.snoc hs, by simp; omega, ?_, hw.trans w1, by rw [hn, (hf _).1, on1], by rw [hn, (hf _).2]⟩
  intro ev hev
  rcases List.mem_append.1 hev with hev | hev
  · exact u1 ev hev
  · rw [List.mem_singleton] at hev; exact ⟨_, _, hev⟩

/-- Everything can be reached with what is on the screen: from any page, every artifact of the project and every open edit, in at most
three steps, with the search panes. -/
theorem C59_reachable (hd : Draws K) (hre : ∃ re, K.compile [] = .ok re ∧ ∀ t, re t = true) (h : Reached K nd lim p) (hl : p.world.ui.nextId ≤ lim) :
    (∀ n q, (n, q) ∈ p.world.ui.shared → ∃ tr p', PRuns K nd lim p tr p' ∧ tr.length ≤ 3 ∧ (∀ ev ∈ tr, ∃ e a, ev = .used e a) ∧
      p'.world = { p.world with ui := { p.world.ui with view := .artifact n } }) ∧
    (∀ id e, p.world.ui.editing.get? id = some e → ∃ tr p', PRuns K nd lim p tr p' ∧ tr.length ≤ 3 ∧ (∀ ev ∈ tr, ∃ e a, ev = .used e a) ∧
      p'.world = { p.world with ui := { p.world.ui with view := .edit id } }) := by
  obtain ⟨re, hre, hall⟩ := hre
  have one : ∀ {tr : List PEvent} {e : Elem} {a : Act}, (∀ ev ∈ tr, ∃ e a, ev = PEvent.used e a) →
      ∀ ev ∈ tr ++ [PEvent.used e a], ∃ e a, ev = PEvent.used e a := by
    intro tr e a hu ev hev
    rcases List.mem_append.1 hev with hev | hev
    · exact hu ev hev
    · rw [List.mem_singleton] at hev; exact ⟨_, _, hev⟩
  constructor
  · intro n q hq
    obtain ⟨t1, p1, r1, l1, u1, w1, on1, pat1⟩ := clear_pane hd h (get := Nav.searchOn) (pat := Nav.search) (tog := .toggleSearch) (f := .setSearch)
      (b := .button c!"search" (.nav .toggleSearch)) (by simp [navBar]) (.button _ _) (by intro n hn; simp [Nav.set, hn])
      (fun p hp on => ⟨_, search_shown hp on, .input _ _ (fun v => .nav (.setSearch v)) []⟩) (by intro n; simp [Nav.set])
    have hlink : Elem.link n.raw n.raw (K.color p1.rest p1.world.ui.shared n) ∈ p1.shown := by
      rw [← mem_linksOf, C59_links (h.runs r1)]
      unfold linksWanted listed
      rw [pat1, on1, hre]
      refine List.mem_append_right _ (List.mem_map.2 ⟨(n, q), ?_, rfl⟩)
      rw [w1]
      simpa [hall] using hq
    obtain ⟨p2, hs, hw⟩ := follow_link hd hlink (C47_artifact_link nd lim n).1
    exact ⟨_, p2, r1.snoc hs, by simp; omega, one u1, by rw [hw, w1]⟩
  · intro id e he
    obtain ⟨t1, p1, r1, l1, u1, w1, on1, pat1⟩ := clear_pane hd h (get := Nav.editingOn) (pat := Nav.editing) (tog := .toggleEditing) (f := .setEditing)
      (b := .button c!"editing" (.nav .toggleEditing)) (by simp [navBar]) (.button _ _) (by intro n hn; simp [Nav.set, hn])
      (fun p hp on => ⟨_, editing_shown hp on, .input _ _ (fun v => .nav (.setEditing v)) []⟩) (by intro n; simp [Nav.set])
    obtain ⟨id', hk, hmem⟩ := IMap.mem_of_get? he
    have hk : id' = id := hk
    subst hk
    have hlink : Elem.link (hashEdit id') (if e.name = [] then c!"NOT YET NAMED" else e.name) [] ∈ p1.shown := by
      rw [← mem_linksOf, C59_links (h.runs r1)]
      unfold linksWanted listed
      rw [pat1, on1, hre]
      refine List.mem_append_left _ (List.mem_map.2 ⟨(id', e), ?_, rfl⟩)
      rw [w1]
      simpa [hall] using hmem
    have hlt := (reached_good h).edLt id' (by rw [he]; rfl)
    obtain ⟨p2, hs, hw⟩ := follow_link hd hlink (C47_edit_link nd lim id' (lt_of_lt_of_le hlt hl))
    exact ⟨_, p2, r1.snoc hs, by simp; omega, one u1, by rw [hw, w1]⟩

/-! ## Concrete cases -/

/-- A painter: texts as they are, patterns by their place in the name. -/
def exK : Painter Unit where
  text _ _ _ t := some t
  part _ _ a := some a.name.raw
  graph _ p _ := some (showNat p.length)
  color _ _ _ := c!"blue"
  spc _ _ := c!"0.0"
  tst _ _ := c!"0.0"
  impl _ _ := []
  parses _ := true
  compile s := if s = c!"(" then .error c!"unclosed group" else .ok (fun t => t.tails.any (s.isPrefixOf ·))

theorem exK_draws : Draws exK := ⟨fun _ _ _ _ => by simp [exK], fun _ _ _ => by simp [exK], fun _ _ _ => by simp [exK]⟩

/-- The page is opened at an artifact. -/
def exP0 : Page Unit :=
  ⟨World.init [(nm "REQ-a", exShown), (nm "SPC-b", exShown)] (.artifact (nm "REQ-a")), (), ⟨true, [], true, [], []⟩,
    (exK.view (World.init [(nm "REQ-a", exShown), (nm "SPC-b", exShown)] (.artifact (nm "REQ-a"))).ui () ⟨true, [], true, [], []⟩).getD []⟩

theorem exP0_reached : Reached exK exNd 1000 exP0 :=
  ⟨[(nm "REQ-a", exShown), (nm "SPC-b", exShown)], (), c!"REQ-a", exP0, [], by rfl, .nil _⟩

/-- `C59_links`: two artifacts, no edits. `C59_fields`: the two patterns. `C59_buttons`: the edit button is there although the page is static. -/
example : linksOf exP0.shown = [(c!"REQ-a", c!"REQ-a", c!"blue"), (c!"SPC-b", c!"SPC-b", c!"blue")] := by decide
example : fieldsOf exP0.shown = [(c!"editing-search", []), (c!"search-input", [])] := by decide
example : exP0.world.ui.webType = .static ∧ HasButton exP0.shown c!"edit" :=
  ⟨rfl, (C59_buttons exP0_reached).1.2 ⟨nm "REQ-a", exShown, rfl, rfl⟩⟩

/-- The page after a control was used. -/
def exUse (p : Page Unit) (a : Act) : Page Unit := match exK.perform exNd 1000 p a with
  | .ok p' => p'
  | _ => p

theorem exUse_step {p : Page Unit} {a : Act} {e : Elem} (k : Nat) (he : p.shown[k]? = some e) (ho : e.Offers a)
    (h : (match exK.perform exNd 1000 p a with | .ok _ => true | _ => false) = true) : PStep exK exNd 1000 p (.used e a) (exUse p a) := by
  refine .used (List.mem_of_getElem? he) ho ?_
  unfold exUse
  split at h
  · rename_i p' e; rw [e]
  · cases h

/-- The edit button, and then a new name in the form. -/
def exP1 : Page Unit := exUse exP0 .edit
def exP2 : Page Unit := exUse exP1 (.msg (.editArtifact 0 (.name c!"REQ-n")))

theorem exP1_step : PStep exK exNd 1000 exP0 (.used (.button c!"edit" .edit) .edit) exP1 := exUse_step 10 rfl (.button _ _) (by rfl)
theorem exP1_reached : Reached exK exNd 1000 exP1 := exP0_reached.step exP1_step
theorem exP2_step : PStep exK exNd 1000 exP1
    (.used (.input c!"edit-name" c!"REQ-a" (fun v => .msg (.editArtifact 0 (.name v)))) (.msg (.editArtifact 0 (.name c!"REQ-n")))) exP2 :=
  exUse_step 13 rfl (.input _ _ (fun v => .msg (.editArtifact 0 (.name v))) c!"REQ-n") (by rfl)
theorem exP2_reached : Reached exK exNd 1000 exP2 := exP1_reached.step exP2_step

/-- `C59_open` and `C59_typed`. -/
example : fieldsOf exP1.shown = [(c!"editing-search", []), (c!"search-input", []), (c!"edit-name", c!"REQ-a"), (c!"edit-file", c!"/d/a.md"),
    (c!"edit-done", []), (c!"edit-text", [])] := by decide
example : fieldsOf exP2.shown = typedInto c!"edit-name" c!"REQ-n" (fieldsOf exP1.shown) := C59_typed exP1_reached exP2_step
example : fieldsOf exP2.shown = [(c!"editing-search", []), (c!"search-input", []), (c!"edit-name", c!"REQ-n"), (c!"edit-file", c!"/d/a.md"),
    (c!"edit-done", []), (c!"edit-text", [])] := by decide

/-- `C59_follow`: the open edit is the first link and has the name that was typed. -/
example : linksOf exP2.shown = [(c!"edit/0", c!"REQ-n", []), (c!"REQ-a", c!"REQ-a", c!"blue"), (c!"SPC-b", c!"SPC-b", c!"blue")] := by decide

/-- `C59_survives`: with a name that is none, save breaks the page when it is not busy; here it is busy. -/
example : exK.perform exNd 1000 exP2 (.msg (.sendUpdate [0])) ≠ .panic := by
  rw [ne_eq, C59_survives exK_draws exP2_reached (e := .button c!"edit-save" (.msg (.sendUpdate [0]))) (List.mem_of_getElem? (i := 11) rfl) (.button _ _)]
  rintro ⟨id, ed, _, _, ⟨_, h, _⟩ | ⟨h, _⟩⟩
  · cases h
  · cases h

/-- Three times sync on the static page: three messages, none of them on the screen. -/
def exQ1 : Page Unit := exUse exP0 (.msg (.fetchProject true))
def exQ2 : Page Unit := exUse exQ1 (.msg (.fetchProject true))
def exQ3 : Page Unit := exUse exQ2 (.msg (.fetchProject true))
/-- The search pane is closed. -/
def exQ4 : Page Unit := exUse exQ3 (.nav .toggleSearch)
/-- The first message is closed. -/
def exQ5 : Page Unit := exUse exQ4 (.msg (.clearLogs [0]))

theorem exQ1_step : PStep exK exNd 1000 exP0 (.used (.button c!"sync" (.msg (.fetchProject true))) (.msg (.fetchProject true))) exQ1 :=
  exUse_step 3 rfl (.button _ _) (by rfl)
theorem exQ4_reached : Reached exK exNd 1000 exQ4 :=
  (((exP0_reached.step exQ1_step).step
    (exUse_step (p := exQ1) (a := .msg (.fetchProject true)) (e := .button c!"sync" (.msg (.fetchProject true))) 3 rfl (.button _ _) (by rfl))).step
    (exUse_step (p := exQ2) (a := .msg (.fetchProject true)) (e := .button c!"sync" (.msg (.fetchProject true))) 3 rfl (.button _ _) (by rfl))).step
    (exUse_step (p := exQ3) (a := .nav .toggleSearch) (e := .button c!"search" (.nav .toggleSearch)) 0 rfl (.button _ _) (by rfl))
theorem exQ5_step : PStep exK exNd 1000 exQ4 (.used (.button (c!"close-err-" ++ showNat 0) (.msg (.clearLogs [0]))) (.msg (.clearLogs [0]))) exQ5 :=
  exUse_step 7 rfl (.button _ _) (by rfl)

/-- `C59_panes`: the search pane was open and is closed. -/
example : Elem.button c!"search" (.nav .toggleSearch) ∈ navBar ∧ fieldsOf exQ3.shown = [(c!"editing-search", []), (c!"search-input", [])] ∧
    fieldsOf exQ4.shown = [(c!"editing-search", [])] := ⟨by simp [navBar], by decide, by decide⟩

/-- `C59_busy_unseen`. -/
example : exQ1.shown = exP0.shown ∧ ∃ i, OneMore exP0.world.ui.errors exQ1.world.ui.errors i ∧ ¬ ShowsLog exQ1.shown i := by
  obtain ⟨h1, _, h2⟩ := C59_busy_unseen exP0_reached exQ1_step (Or.inr ⟨true, rfl, Or.inr rfl⟩)
  exact ⟨h1, h2⟩

/-- `C59_close` says which messages are left, not in which order: the order changes. Closing the first of three messages puts the last one
in its place. -/
theorem C59_close_reorders : ∃ (p p' : Page Unit) (e : Elem), Reached exK exNd 1000 p ∧ PStep exK exNd 1000 p (.used e (.msg (.clearLogs [0]))) p' ∧
    p.world.ui.errors.map Prod.fst = [0, 1, 2] ∧ p'.world.ui.errors.map Prod.fst = [2, 1] :=
  ⟨exQ4, exQ5, _, exQ4_reached, exQ5_step, rfl, rfl⟩

/-- `C59_draw_iff`: a painter that cannot draw a text. -/
example : exK.view exP0.world.ui () exP0.nav ≠ none := by rw [ne_eq, C59_draw_iff]; rintro (⟨h, _⟩ | ⟨m, a, _, _, h | h⟩ | ⟨_, _, h, _⟩) <;> cases h
example : CannotDraw { exK with text := fun _ _ _ _ => none } exP0.world.ui () exP0.nav :=
  Or.inr (Or.inl ⟨nm "REQ-a", exShown, rfl, rfl, Or.inr rfl⟩)

/-- `C59_reachable`: the empty pattern matches everything. -/
example : ∃ re, exK.compile [] = .ok re ∧ ∀ t, re t = true :=
  ⟨_, rfl, fun t => by simp only [List.any_eq_true]; exact ⟨t, by simp, rfl⟩⟩

end Web
end Art
