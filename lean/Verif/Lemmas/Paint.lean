import Verif.Spec.Paint
import Verif.Lemmas.PageShow
import Verif.Lemmas.ExportDoc
import Verif.Props.Page
import Verif.Props.Dot

/-! Helper lemmas for C60: which controls break the page. -/

namespace Art
namespace Web

open Spec.Export Spec

section general
variable {X : Type} {K : Painter X} {nd : Char → Bool} {lim : Nat} {p : Page X}

/-- The link to a form. -/
theorem fromHash_edit (nd : Char → Bool) (lim id : Nat) :
    View.fromHash nd lim (hashEdit id) = .ok (if id < lim then .edit id else .notFound) := by
  split
  · rename_i h; exact C47_edit_link nd lim id h
  · rename_i h
    have hdig : ∀ c ∈ showNat id, asciiDigit c = true := fun c hc => showNat_digit hc
    have hnodash : '-' ∉ hashEdit id := by
      intro hm
      unfold hashEdit at hm
      rcases List.mem_append.1 hm with hm | hm
      · revert hm; decide
      · exact absurd (hdig _ hm) (by decide)
    have hno : NoName (hashEdit id) := by
      rintro a x b e ⟨t, r, rfl, _⟩
      exact hnodash (by rw [e]; simp)
    have hg : ¬ IsGraph (hashEdit id) := by
      rintro (hg | hg)
      · simp [hashEdit] at hg
      · simp [hashEdit, upper] at hg
        exact absurd hg.1 (by decide)
    refine ((C47_route nd lim _).2.2.1 hg hno (showNat id) ?_).2 fun n hn => ?_
    · refine firstEdit_iff.2 ⟨[], c!"edit/", [], by simp [hashEdit], by decide, showNat_ne_nil id,
        fun c hc => by simp [digitU, hdig c hc], by simp, by simp⟩
    · have := (spells_iff.1 hn).2.2
      rw [decVal_showNat] at this
      omega

theorem body_congr {u v : UI} {x : X} {n m : Nav} (h1 : u.view = v.view) (h2 : u.shared = v.shared) (h3 : u.editing = v.editing)
    (h4 : u.view = .graph → n.graph = m.graph) : K.body u x n = K.body v x m := by
  unfold Painter.body
  rw [← h1]
  cases hv : u.view with
  | graph => simp only [Painter.graphPage, h4 hv, h2]
  | artifact a => simp only [Painter.artifactPage, Painter.existing, h2]
  | edit i => simp only [Painter.editPage, h2, h3]
  | notFound => rfl

theorem cannotDraw_body (u : UI) (x : X) (n : Nav) : CannotDraw K u x n ↔ K.body u x n = none := by
  rw [← view_none_iff]
  unfold Painter.view
  rw [Option.map_eq_none_iff]

theorem paint_panic {w : World} {x : X} {n : Nav} : K.paint w x n = .panic ↔ CannotDraw K w.ui x n := by
  rw [← view_none_iff]
  unfold Painter.paint
  cases K.view w.ui x n <;> simp

/-- What is on the screen could be drawn again. -/
theorem drawable (h : Reached K nd lim p) : ¬ CannotDraw K p.world.ui p.rest p.nav := by
  obtain ⟨u, hu, hv⟩ := (reached_inv h).pic
  rw [cannotDraw_body, ← body_congr hu.view hu.shared hu.editing (fun _ => rfl)]
  obtain ⟨b, hb, _⟩ := view_some hv
  rw [hb]; simp

theorem handle_panic {x : X} {m : Msg} : K.handle nd lim p x m = .panic ↔ p.world.ui.update nd lim m = .panic ∨
    ∃ r, p.world.ui.update nd lim m = .ok r ∧ m.renders p.world.ui = true ∧ CannotDraw K r.1 x p.nav := by
  unfold Painter.handle
  cases hu : p.world.ui.update nd lim m with
  | panic => simp
  | err e => exact e.elim
  | ok r =>
    simp only [Res.bind_ok, reduceCtorEq, false_or, Res.ok.injEq, exists_eq_left']
    split
    · rename_i hm
      rw [paint_panic]
      simp only [hm, true_and]
      rfl
    · rename_i hm
      simp [hm]

theorem batch_panic {m : Nat → Msg} : K.batch nd lim p m = .panic ↔
    UI.update nd lim { p.world.ui with nextId := p.world.ui.nextId + 1 } (m p.world.ui.nextId) = .panic ∨
    ∃ r, UI.update nd lim { p.world.ui with nextId := p.world.ui.nextId + 1 } (m p.world.ui.nextId) = .ok r ∧
      CannotDraw K { r.1 with view := if p.world.ui.nextId < lim then .edit p.world.ui.nextId else .notFound } p.rest p.nav := by
  unfold Painter.batch
  simp only [fromHash_edit, Res.bind_ok]
  cases hu : UI.update nd lim { p.world.ui with nextId := p.world.ui.nextId + 1 } (m p.world.ui.nextId) with
  | panic => simp
  | err e => exact e.elim
  | ok r =>
    simp only [Res.bind_ok, reduceCtorEq, false_or, Res.ok.injEq, exists_eq_left']
    show K.paint { p.world with ui := _, outstanding := _ } p.rest p.nav = _ ↔ _
    rw [paint_panic]

theorem cannotDraw_alike {u v : UI} {x : X} {n : Nav} (h1 : u.view = v.view) (h2 : u.shared = v.shared) (h3 : u.editing = v.editing) :
    CannotDraw K u x n ↔ CannotDraw K v x n := by
  rw [cannotDraw_body, cannotDraw_body, body_congr h1 h2 h3 (fun _ => rfl)]

theorem cannotDraw_edit {u : UI} {x : X} {n : Nav} {id : Nat} (h : u.view = .edit id) :
    CannotDraw K u x n ↔ ∃ e, u.editing.get? id = some e ∧ K.text x u.shared e.name e.text = none := by
  unfold CannotDraw
  rw [h]
  constructor
  · rintro (⟨h, _⟩ | ⟨_, _, h, _⟩ | ⟨i, e, h, h1, h2⟩)
    · cases h
    · cases h
    · cases h; exact ⟨e, h1, h2⟩
  · rintro ⟨e, h1, h2⟩
    exact Or.inr (Or.inr ⟨id, e, rfl, h1, h2⟩)

theorem cannotDraw_notFound {u : UI} {x : X} {n : Nav} (h : u.view = .notFound) : ¬ CannotDraw K u x n := by
  unfold CannotDraw
  rw [h]
  rintro (⟨h, _⟩ | ⟨_, _, h, _⟩ | ⟨_, _, h, _⟩) <;> cases h

theorem cannotDraw_graph {u : UI} {x : X} {n : Nav} (h : u.view = .graph) :
    CannotDraw K u x n ↔ ∃ re, K.compile n.graph = .ok re ∧ K.graph x u.shared re = none := by
  unfold CannotDraw
  rw [h]
  constructor
  · rintro (⟨_, h⟩ | ⟨_, _, h, _⟩ | ⟨i, e, h, h1, h2⟩)
    · exact h
    · cases h
    · cases h
  · exact fun h => Or.inl ⟨rfl, h⟩

/-- Views that are no forms do not look at the open edits. -/
theorem cannotDraw_noEdit {u v : UI} {x : X} {n : Nav} (h1 : u.view = v.view) (h2 : u.shared = v.shared) (h3 : ∀ i, u.view ≠ .edit i) :
    CannotDraw K u x n ↔ CannotDraw K v x n := by
  rw [cannotDraw_body, cannotDraw_body]
  have : K.body u x n = K.body v x n := by
    unfold Painter.body
    rw [← h1]
    cases hv : u.view with
    | graph => simp only [Painter.graphPage, h2]
    | artifact a => simp only [Painter.artifactPage, Painter.existing, h2]
    | edit i => exact absurd hv (h3 i)
    | notFound => rfl
  rw [this]

theorem controls (h : Reached K nd lim p) {e : Elem} {a : Act} (he : e ∈ p.shown) (ha : e.Offers a) :
    K.perform nd lim p a = .panic ↔ Breaks p.world.ui a ∨ Undrawable K nd lim p.world.ui p.rest p.nav a := by
  have ho := (reached_inv h).offered he ha
  have hdr := drawable h
  have hgo : ∀ hash, View.fromHash nd lim hash ≠ .panic →
      (K.perform nd lim p (.go hash) = .panic ↔ Breaks p.world.ui (.go hash) ∨ Undrawable K nd lim p.world.ui p.rest p.nav (.go hash)) := by
    intro hash hh
    have hb : ¬ Breaks p.world.ui (.go hash) := by rintro ⟨_, _, _, _, ⟨h, _⟩ | ⟨h, _⟩⟩ <;> cases h
    simp only [hb, false_or, Undrawable]
    show (View.fromHash nd lim hash >>= fun v => K.handle nd lim p p.rest (.setView v)) = .panic ↔ _
    cases hv : View.fromHash nd lim hash with
    | panic => exact absurd hv hh
    | err e => exact e.elim
    | ok v =>
      rw [Res.bind_ok, handle_panic]
      simp only [UI.update, reduceCtorEq, false_or, Res.ok.injEq, exists_eq_left', Msg.renders, true_and]
  have hroute : ∀ id, View.fromHash nd lim (hashEdit id) ≠ .panic := by intro id; rw [fromHash_edit]; simp
  have hmsg : ∀ m, K.perform nd lim p (.msg m) = .panic ↔ _ := fun m => handle_panic (x := p.rest) (m := m)
  cases ho with
  | nav m =>
    have hb : ¬ Breaks p.world.ui (.nav m) := by rintro ⟨_, _, _, _, ⟨h, _⟩ | ⟨h, _⟩⟩ <;> cases h
    have hp : K.perform nd lim p (.nav m) = .panic ↔ CannotDraw K p.world.ui p.rest (p.nav.set m) := paint_panic
    rw [hp]
    simp only [hb, false_or]
    have same : (p.nav.set m).graph = p.nav.graph → ¬ CannotDraw K p.world.ui p.rest (p.nav.set m) := by
      intro e
      rw [cannotDraw_body, body_congr (v := p.world.ui) (m := p.nav) rfl rfl rfl (fun _ => e), ← cannotDraw_body]
      exact hdr
    cases m with
    | setGraph v =>
      simp only [Undrawable]
      by_cases hg : p.world.ui.view = .graph
      · rw [cannotDraw_graph hg]; simp [hg, Nav.set]
      · refine iff_of_false ?_ (fun h => hg h.1)
        rw [cannotDraw_body, body_congr (v := p.world.ui) (m := p.nav) rfl rfl rfl (fun e => absurd e hg), ← cannotDraw_body]
        exact hdr
    | toggleSearch => exact iff_of_false (same rfl) id
    | toggleEditing => exact iff_of_false (same rfl) id
    | setSearch v => exact iff_of_false (same rfl) id
    | setEditing v => exact iff_of_false (same rfl) id
  | create =>
    have hb : ¬ Breaks p.world.ui .create := by rintro ⟨_, _, _, _, ⟨h, _⟩ | ⟨h, _⟩⟩ <;> cases h
    have hp : K.perform nd lim p .create = .panic ↔ _ := batch_panic (m := .startNew)
    rw [hp]
    simp only [hb, false_or, UI.update, reduceCtorEq, Res.ok.injEq, exists_eq_left', Undrawable]
    by_cases hl : p.world.ui.nextId < lim
    · rw [if_pos hl, cannotDraw_edit (id := p.world.ui.nextId) rfl]
      simp only [get?_insert_nat, if_pos, Option.some.injEq, exists_eq_left', hl, true_and]
      exact Iff.rfl
    · rw [if_neg hl]
      exact iff_of_false (cannotDraw_notFound rfl) (fun h => hl h.1)
  | reload =>
    rw [hmsg]
    refine iff_of_false ?_ (by
      rintro (⟨_, _, _, _, ⟨h, _⟩ | ⟨h, _⟩⟩ | h)
      · cases h
      · cases h
      · exact h)
    rintro (h | ⟨_, _, h, _⟩)
    · exact C37_others_never_panic _ _ (Or.inr (Or.inr (Or.inr (Or.inl ⟨_, rfl⟩)))) h
    · cases h
  | graph => exact hgo _ (C47_ascii nd lim _ (by decide))
  | clearAll =>
    rw [hmsg]
    refine iff_of_false ?_ (by
      rintro (⟨_, _, _, _, ⟨h, _⟩ | ⟨h, _⟩⟩ | h)
      · cases h
      · cases h
      · exact h)
    simp only [UI.update, reduceCtorEq, false_or, Res.ok.injEq, exists_eq_left']
    rintro ⟨_, h⟩
    exact hdr ((cannotDraw_alike (by rfl) (by rfl) (by rfl)).1 h)
  | clear x hx =>
    rw [hmsg]
    refine iff_of_false ?_ (by
      rintro (⟨_, _, _, _, ⟨h, _⟩ | ⟨h, _⟩⟩ | h)
      · cases h
      · cases h
      · exact h)
    simp only [UI.update, reduceCtorEq, false_or, Res.ok.injEq, exists_eq_left']
    rintro ⟨_, h⟩
    exact hdr ((cannotDraw_alike (by rfl) (by rfl) (by rfl)).1 h)
  | toEdit x hx => exact hgo _ (hroute _)
  | toArt x hx => exact hgo _ (by rw [(C47_artifact_link nd lim x.1).1]; simp)
  | edit m q h1 h2 =>
    have hp : K.perform nd lim p .edit = .panic ↔ _ := batch_panic (m := .startCurrent)
    rw [hp]
    refine iff_of_false ?_ (by
      rintro (⟨_, _, _, _, ⟨h, _⟩ | ⟨h, _⟩⟩ | h)
      · cases h
      · cases h
      · exact h)
    have hu : UI.update nd lim { p.world.ui with nextId := p.world.ui.nextId + 1 } (.startCurrent p.world.ui.nextId) =
        .ok ({ p.world.ui with nextId := p.world.ui.nextId + 1, editing := p.world.ui.editing.insert p.world.ui.nextId (Edit.fromArtifact q) }, []) := by
      simp [UI.update, UI.startCurrent, h1, h2]
    rw [hu]
    simp only [reduceCtorEq, false_or, Res.ok.injEq, exists_eq_left']
    intro hc
    by_cases hl : p.world.ui.nextId < lim
    · rw [if_pos hl, cannotDraw_edit (id := p.world.ui.nextId) rfl] at hc
      simp only [get?_insert_nat, if_pos, Option.some.injEq, exists_eq_left'] at hc
      exact hdr (Or.inr (Or.inl ⟨m, q, h1, h2, Or.inr hc⟩))
    · rw [if_neg hl] at hc
      exact cannotDraw_notFound rfl hc
  | save id ed h1 h2 =>
    rw [hmsg, C37_save_panics_iff]
    have hund : ¬ Undrawable K nd lim p.world.ui p.rest p.nav (.msg (.sendUpdate [id])) := fun h => h
    simp only [hund, or_false]
    constructor
    · rintro (⟨hf, i, hi, hn⟩ | ⟨r, hr, hm, hc⟩)
      · rw [List.mem_singleton] at hi; subst hi
        exact ⟨i, ed, h1, h2, Or.inl ⟨rfl, hf, hn ed h2⟩⟩
      · obtain ⟨r, sent⟩ := r
        rcases startSendUpdate_ok hr with ⟨hf, rfl, _⟩ | ⟨_, ops, _, _, rfl⟩
        · simp [Msg.renders, hf] at hm
        · exact absurd ((cannotDraw_alike (by rfl) (by rfl) (by rfl)).1 hc) hdr
    · rintro ⟨i, ed', g1, g2, ⟨g3, hf, hn⟩ | ⟨g3, _⟩⟩
      · rw [h1] at g1; cases g1
        rw [h2] at g2; cases g2
        exact Or.inl ⟨hf, id, by simp, fun e' he' => by rw [h2] at he'; cases he'; exact hn⟩
      · cases g3
  | cancel id ed h1 h2 =>
    rw [hmsg, (C37_close_panics_iff (nd := nd) (lim := lim) _ (reached_good h).edNodup).1]
    refine or_congr ?_ ?_
    · constructor
      · rintro ⟨e', g1, g2, g3⟩
        exact ⟨id, e', g1, g2, Or.inr ⟨rfl, g3⟩⟩
      · rintro ⟨i, ed', g1, g2, ⟨g3, _⟩ | ⟨g3, g4⟩⟩
        · cases g3
        · rw [h1] at g1; cases g1
          exact ⟨ed', h1, g2, g4⟩
    · simp only [Msg.renders, true_and, Undrawable]
      have key : ∀ r, p.world.ui.update nd lim (.stopEdit id) = .ok r → Lands p.world.ui.shared ed r.1.view ∧ r.1.shared = p.world.ui.shared := by
        intro r hr
        simp only [UI.update, Res.bind_eq_ok, Res.pure_def, Res.ok.injEq] at hr
        obtain ⟨u1, hu1, rfl⟩ := hr
        rcases completeEditing_cases (nd := nd) (lim := lim) p.world.ui id with ⟨u', g1, ⟨_, g2⟩ | ⟨e', _, g2, g3⟩⟩ | ⟨g1, _⟩
        · rw [g2 h1] at h2; cases h2
        · rw [hu1] at g1; cases g1
          rw [h2] at g2; cases g2
          obtain ⟨v, rfl⟩ := completeEditing_ok hu1
          exact ⟨g3, rfl⟩
        · rw [hu1] at g1; cases g1
      constructor
      · rintro ⟨r, hr, hc⟩
        obtain ⟨k1, k2⟩ := key r hr
        exact ⟨ed, r.1.view, h1, h2, k1, ⟨r, hr, rfl⟩, (cannotDraw_noEdit (u := r.1) (v := { p.world.ui with view := r.1.view }) (by rfl) k2 (lands_not_edit k1)).1 hc⟩
      · rintro ⟨e', v, _, g2, g3, ⟨r, hr, rfl⟩, hc⟩
        obtain ⟨k1, k2⟩ := key r hr
        exact ⟨r, hr, (cannotDraw_noEdit (u := r.1) (v := { p.world.ui with view := r.1.view }) (by rfl) k2 (lands_not_edit k1)).2 hc⟩
  | field id ed f ed' h1 h2 h3 =>
    rw [hmsg]
    have hb : ¬ Breaks p.world.ui (.msg (.editArtifact id f)) := by rintro ⟨_, _, _, _, ⟨h, _⟩ | ⟨h, _⟩⟩ <;> cases h
    have hu : p.world.ui.update nd lim (.editArtifact id f) = .ok ({ p.world.ui with editing := p.world.ui.editing.insert id ed' }, []) := by
      simp [UI.update, UI.editArtifact, h2, h3]
    rw [hu]
    simp only [hb, reduceCtorEq, false_or, Res.ok.injEq, exists_eq_left', Msg.renders, true_and]
    rw [cannotDraw_edit (u := { p.world.ui with editing := p.world.ui.editing.insert id ed' }) (id := id) h1]
    simp only [get?_insert_nat, if_pos, Option.some.injEq, exists_eq_left']
    have hold : K.text p.rest p.world.ui.shared ed.name ed.text ≠ none := fun hn => hdr ((cannotDraw_edit h1).2 ⟨ed, h2, hn⟩)
    cases f with
    | name v =>
      simp only [Edit.set, Option.some.injEq] at h3; subst h3
      simp only [Undrawable, h1, h2, true_and, Option.some.injEq, exists_eq_left']
    | text v =>
      simp only [Edit.set, Option.some.injEq] at h3; subst h3
      simp only [Undrawable, h1, h2, true_and, Option.some.injEq, exists_eq_left']
    | file v => simp only [Edit.set, Option.some.injEq] at h3; subst h3; exact iff_of_false hold (fun h => h)
    | done v => simp only [Edit.set, Option.some.injEq] at h3; subst h3; exact iff_of_false hold (fun h => h)
    | partofCreate => simp only [Edit.set, Option.some.injEq] at h3; subst h3; exact iff_of_false hold (fun h => h)
    | partofDelete i =>
      simp only [Edit.set] at h3
      split at h3
      · cases h3; exact iff_of_false hold (fun h => h)
      · cases h3
    | partofUpdate i v =>
      simp only [Edit.set] at h3
      split at h3
      · cases h3; exact iff_of_false hold (fun h => h)
      · cases h3

end general

end Web
end Art
