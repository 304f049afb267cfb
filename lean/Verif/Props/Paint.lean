import Verif.Lemmas.Paint
import Verif.Lemmas.PaintShape
import Verif.Props.Page
import Verif.Props.Export
import Verif.Props.Ls
import Verif.Props.App

/-!
# C60: what the web page draws and when it breaks

C59 takes the drawing of texts and graphs as given. Here it is the one of the code. The page breaks exactly when a control asks for something that cannot
be drawn, and for a project that could be read this is said in terms of the texts.
-/

namespace Art
namespace Web
open Spec Spec.Export Spec.Dot

/-! ## which controls break the page -/

/-- C60. A control breaks the page exactly if it does so before anything is drawn, or if what has to be drawn afterwards cannot be drawn. This holds for
every way of drawing, unlike `C59_survives`, which is about those that always succeed. -/
theorem C60_controls {X : Type} {K : Painter X} {nd : Char → Bool} {lim : Nat} {p : Page X} (h : Reached K nd lim p) {e : Elem} {a : Act}
    (he : e ∈ p.shown) (ho : e.Offers a) :
    K.perform nd lim p a = .panic ↔ Breaks p.world.ui a ∨ Undrawable K nd lim p.world.ui p.rest p.nav a := controls h he ho

section real
variable {L : Libs} {readToml : Str → Option SettingsRaw} {hash : ArtifactIm → HashIm} {ncpu : Nat} {fs : FS} {base : FilePath} {c : Categorized}
  {p : Project} {F : ExportLibs} {B : Browser}

theorem asNode_none {html : Str} : B.asNode html = none ↔ B.node html = false := by
  unfold Browser.asNode; split <;> simp_all

theorem textHtml_none {parent t : Str} : B.textHtml F p parent t = none ↔
    (∀ md, (pageMd p).replace F parent t ≠ .ok md) ∨ B.TornText F p parent t := by
  unfold Browser.textHtml Browser.TornText
  cases hr : (pageMd p).replace F parent t with
  | ok md => simp [asNode_none, Browser.mdHtml]
  | err e => simp
  | panic => simp

/-- C60. A text is not drawn exactly if it has a piece that cannot be shown or if the HTML made from it is not a single node. -/
theorem C60_text (h : ReadsProject L readToml hash ncpu fs base (.ok (c, p))) (P : Proj) (parent t : Str) :
    (B.painter F).text p P parent t = none ↔ Unshowable F p parent t ∨ B.TornText F p parent t := by
  refine textHtml_none.trans (or_congr_left ?_)
  obtain ⟨h1, h2⟩ := C55_crash (F := F) (md := pageMd p) h parent t
  refine Iff.trans ?_ h1
  cases hr : (pageMd p).replace F parent t with
  | ok md => simp
  | err e => exact absurd hr (h2 e)
  | panic => simp

/-- C60. The text of an artifact of the project has no such piece, unless one of its subnames is implemented at a place for which there is no address. -/
theorem C60_stored (h : ReadsProject L readToml hash ncpu fs base (.ok (c, p))) {x : Name × Artifact} (hx : x ∈ p.artifacts) (P : Proj) :
    (B.painter F).text p P x.2.name.raw x.2.text = none ↔ Homeless F p x.2.name.raw x.2.text ∨ B.TornText F p x.2.name.raw x.2.text := by
  refine textHtml_none.trans (or_congr_left ?_)
  rcases text_shown (F := F) (md := pageMd p) (read_readable h) rfl hx with ⟨o, h1, _, h2⟩ | ⟨h1, h2⟩
  · exact iff_of_false (fun hn => hn o h1) h2
  · exact iff_of_true (fun md e => by rw [h1] at e; cases e) h2

theorem cut_chars {bol : Bool} {t : Str} {ps : List Piece} (h : Cut bol t ps) : ∀ x ∈ ps, ∀ ch ∈ x.src, ch ∈ t := by
  intro x hx ch hc
  rw [← cut_src h]
  exact List.mem_flatMap.2 ⟨x, hx, hc⟩

/-- C60. Whatever is typed: without the letter `ſ` (U+017F) in the name and in the text, only such a subname cannot be shown. -/
theorem C60_typed (F : ExportLibs) (p : Project) {parent t : Str} (hp : longS ∉ parent) (ht : longS ∉ t) : Unshowable F p parent t ↔ Homeless F p parent t := by
  have pan : ∀ {n : Str}, Panics n → longS ∈ n := by
    intro n hn
    obtain ⟨a, r, rfl, _, hl, _⟩ := (C01_panic_iff n).1 hn
    simp [hl]
  constructor
  · rintro ⟨ps, hc, x, hx, hb⟩
    cases x with
    | plain _ => exact hb.elim
    | sub s =>
      rcases hb with hb | ⟨loc, h1, h2⟩
      · exact absurd (pan hb) hp
      · exact ⟨loc, ps, s, hc, hx, h1, h2⟩
    | ref n s => exact absurd (cut_chars hc _ hx longS (by simp [Piece.src, pan hb])) ht
    | graph head body =>
      obtain ⟨qs, hq, q, hq', hb⟩ := hb
      cases q with
      | plain _ => exact hb.elim
      | sub s => exact absurd (pan hb) hp
      | graph _ _ => exact hb.elim
      | ref n s =>
        have := cut_chars hq _ hq' longS (by simp [Piece.src, pan hb])
        exact absurd (cut_chars hc _ hx longS (by simp [Piece.src, this])) ht
  · rintro ⟨loc, ps, s, hc, hx, h1, h2⟩
    exact ⟨ps, hc, _, hx, Or.inr ⟨loc, h1, h2⟩⟩

theorem get_of_shows (h : ReadsProject L readToml hash ncpu fs base (.ok (c, p))) {P : Proj} (hs : Whole.Shows P p) (m : Name) (a : Shown) :
    P.get? m = some a ↔ ∃ x ∈ p.artifacts, key x.1 = key m ∧ a = Whole.look x.2 := by
  obtain ⟨hn, _, _⟩ := reads_names h
  have hP : IMap.Nodup P := by
    unfold IMap.Nodup at hn ⊢
    refine (hs.map _).nodup_iff.2 ?_
    rw [List.map_map]; exact hn
  constructor
  · intro hg
    obtain ⟨m', hm, hg⟩ := IMap.mem_of_get? hg
    obtain ⟨x, hx, e⟩ := List.mem_map.1 (hs.mem_iff.1 hg)
    cases e
    exact ⟨x, hx, hm, rfl⟩
  · rintro ⟨x, hx, hm, rfl⟩
    rw [← IMap.get?_congr P hm]
    exact IMap.get?_of_mem hP (hs.mem_iff.2 (List.mem_map.2 ⟨x, hx, rfl⟩))

theorem dotHtml_cases (d : Str) : (B.dotHtml d = some (c!"<div>" ++ B.viz d ++ c!"</div>") ∧ ¬ B.Torn d) ∨ (B.dotHtml d = none ∧ B.Torn d) := by
  unfold Browser.dotHtml Browser.Torn Browser.asNode
  split <;> simp_all

/-- C60. The graph beside an artifact: what graphviz makes of a graph of the artifact and its neighbours. -/
theorem C60_part (h : ReadsProject L readToml hash ncpu fs base (.ok (c, p))) {x : Name × Artifact} (hx : x ∈ p.artifacts) (P : Proj) :
    ∃ d, NeighboursDrawn p x.2 d ∧
      (((B.painter F).part p P (Whole.look x.2) = some (c!"<div>" ++ B.viz d ++ c!"</div>") ∧ ¬ B.Torn d) ∨
       ((B.painter F).part p P (Whole.look x.2) = none ∧ B.Torn d)) := by
  obtain ⟨d, h1, h2⟩ := neighbours_drawn h hx
  obtain ⟨hn, hk, _⟩ := reads_names h
  have hg : p.artifacts.get? (Whole.look x.2).name = some x.2 := by
    show p.artifacts.get? x.2.name = _
    rw [hk x hx]; exact IMap.get?_of_mem hn hx
  have e : (B.painter F).part p P (Whole.look x.2) = B.dotHtml d := by
    show (match p.artifacts.get? (Whole.look x.2).name with
      | some x => match p.artifactDot x with
        | .ok d => B.dotHtml d
        | _ => none
      | none => none) = _
    rw [hg]
    show (match p.artifactDot x.2 with
        | .ok d => B.dotHtml d
        | _ => none) = _
    rw [h1]
  rw [e]
  exact ⟨d, h2, dotHtml_cases d⟩

/-- C60. The graph for a search: what graphviz makes of a graph of all artifacts that are selected and their neighbours. -/
theorem C60_graph (h : ReadsProject L readToml hash ncpu fs base (.ok (c, p))) (hB : B.Searches) (P : Proj) (re : Str → Bool) :
    ∃ d ns es, Dot.Draws p d ns es ∧ es.Nodup ∧
      (∀ a b, (a, b) ∈ es ↔ IsPart p a b ∧ (Selected p re a ∨ Selected p re b)) ∧
      (∀ k, k ∈ ns.map (fun n => upper n.1.raw) ↔ Selected p re k ∨ ∃ k', Selected p re k' ∧ (IsPart p k k' ∨ IsPart p k' k)) ∧
      (((B.painter F).graph p P re = some (c!"<div>" ++ B.viz d ++ c!"</div>") ∧ ¬ B.Torn d) ∨ ((B.painter F).graph p P re = none ∧ B.Torn d)) := by
  obtain ⟨d, ns, es, h1, h2, h3, h4, _, h6, _⟩ := C54_search h (hB p re)
  have e : (B.painter F).graph p P re = B.dotHtml d := by
    show (match B.search p re with
      | .ok d => B.dotHtml d
      | _ => none) = _
    rw [h1]
  rw [e]
  exact ⟨d, ns, es, h2, h3, h4, h6, dotHtml_cases d⟩

/-- C60. When the page for a project that could be read cannot be drawn: if a graph is not a single node, if a text of the project has a subname for which there is
no address or is not a single node, if a text in a form cannot be shown or is not a single node. -/
theorem C60_page (h : ReadsProject L readToml hash ncpu fs base (.ok (c, p))) {u : UI} (hs : Whole.Shows u.shared p) (n : Nav) :
    CannotDraw (B.painter F) u p n ↔
      (u.view = .graph ∧ ∃ re, B.compile n.graph = .ok re ∧ (B.painter F).graph p u.shared re = none) ∨
      (∃ x ∈ p.artifacts, ∃ m, u.view = .artifact m ∧ key x.1 = key m ∧
        ((∃ d, p.artifactDot x.2 = .ok d ∧ B.Torn d) ∨ Homeless F p x.2.name.raw x.2.text ∨ B.TornText F p x.2.name.raw x.2.text)) ∨
      ∃ id e, u.view = .edit id ∧ u.editing.get? id = some e ∧ (Unshowable F p e.name e.text ∨ B.TornText F p e.name e.text) := by
  unfold CannotDraw
  refine or_congr Iff.rfl (or_congr ?_ ?_)
  · have part : ∀ x ∈ p.artifacts, (B.painter F).part p u.shared (Whole.look x.2) = none ↔ ∃ d, p.artifactDot x.2 = .ok d ∧ B.Torn d := by
      intro x hx
      obtain ⟨d, h1, h2⟩ := neighbours_drawn h hx
      obtain ⟨hn, hk, _⟩ := reads_names h
      have hg : p.artifacts.get? x.2.name = some x.2 := by rw [hk x hx]; exact IMap.get?_of_mem hn hx
      show (match p.artifacts.get? x.2.name with
        | some x => match p.artifactDot x with
          | .ok d => B.dotHtml d
          | _ => none
        | none => none) = none ↔ _
      rw [hg]
      show (match p.artifactDot x.2 with
          | .ok d => B.dotHtml d
          | _ => none) = none ↔ _
      rw [h1]
      simp only [Res.ok.injEq, exists_eq_left']
      exact asNode_none
    constructor
    · rintro ⟨m, a, hv, hg, hd⟩
      obtain ⟨x, hx, hm, rfl⟩ := (get_of_shows h hs m a).1 hg
      refine ⟨x, hx, m, hv, hm, ?_⟩
      rcases hd with hd | hd
      · exact Or.inl ((part x hx).1 hd)
      · exact Or.inr ((C60_stored h hx u.shared).1 hd)
    · rintro ⟨x, hx, m, hv, hm, hd⟩
      refine ⟨m, _, hv, (get_of_shows h hs m (Whole.look x.2)).2 ⟨x, hx, hm, rfl⟩, ?_⟩
      rcases hd with hd | hd
      · exact Or.inl ((part x hx).2 hd)
      · exact Or.inr ((C60_stored h hx u.shared).2 hd)
  · constructor
    · rintro ⟨id, e, h1, h2, h3⟩
      exact ⟨id, e, h1, h2, (C60_text h u.shared e.name e.text).1 h3⟩
    · rintro ⟨id, e, h1, h2, h3⟩
      exact ⟨id, e, h1, h2, (C60_text h u.shared e.name e.text).2 h3⟩

/-- C60. A message is shown as a part of the page if the browser can make exactly one node of it, and otherwise as a text that says that it cannot. Whatever is in the
message, such as an answer of the server, becomes a part of the page in the first case. -/
theorem C60_message (F : ExportLibs) (u : UI) :
    (∀ x ∈ u.errors, (B.node x.2.html = true → .html x.2.html ∈ (B.painter F).errorPane u) ∧
      (B.node x.2.html = false → .text (c!"INTERNALERROR: invalid html: " ++ x.2.html) ∈ (B.painter F).errorPane u)) ∧
    (∀ s, .html s ∈ (B.painter F).errorPane u → B.node s = true ∧ ∃ x ∈ u.errors, x.2.html = s) := by
  have hp : (B.painter F).parses = B.node := rfl
  unfold Painter.errorPane
  constructor
  · intro x hx
    cases he : u.errors with
    | nil => rw [he] at hx; cases hx
    | cons y l =>
      rw [he] at hx
      constructor
      · intro hn
        exact List.mem_cons_of_mem _ (List.mem_flatMap.2 ⟨x, hx, by simp [Painter.errorLog, hp, hn]⟩)
      · intro hn
        exact List.mem_cons_of_mem _ (List.mem_flatMap.2 ⟨x, hx, by simp [Painter.errorLog, hp, hn]⟩)
  · intro s hs
    cases he : u.errors with
    | nil => rw [he] at hs; cases hs
    | cons y l =>
      rw [he] at hs
      rcases List.mem_cons.1 hs with h | h
      · cases h
      · obtain ⟨x, hx, hm⟩ := List.mem_flatMap.1 h
        simp only [Painter.errorLog, hp, List.mem_cons, List.not_mem_nil, or_false, reduceCtorEq, false_or] at hm
        split at hm
        · rename_i hn
          cases hm
          exact ⟨hn, x, hx, rfl⟩
        · cases hm

/-- C60. A name is written in the colour of its artifact, which is the colour that the terminal has for it, or in grey. -/
theorem C60_colour (h : ReadsProject L readToml hash ncpu fs base (.ok (c, p))) (P : Proj) (n : Name) :
    (∀ x ∈ p.artifacts, key x.2.name = key n → ∃ k, x.2.completed.termColor = .ok k ∧ (B.painter F).color p P n = hex k) ∧
    ((∀ x ∈ p.artifacts, key x.2.name ≠ key n) → (B.painter F).color p P n = c!"#DCDEE2") := by
  obtain ⟨hn, hk, _⟩ := reads_names h
  refine ⟨fun x hx e => ?_, fun hno => ?_⟩
  · obtain ⟨k, h1, _, h3⟩ := C38_total x.2.completed
    refine ⟨k, h1, ?_⟩
    have hg : p.artifacts.get? n = some x.2 := by
      rw [← IMap.get?_congr _ (show key x.1 = key n by rw [← hk x hx]; exact e)]; exact IMap.get?_of_mem hn hx
    show webNameColor p n = _
    unfold webNameColor
    rw [hg]
    simp only [h3]
  · show webNameColor p n = _
    unfold webNameColor
    cases hg : p.artifacts.get? n with
    | none => rfl
    | some a =>
      obtain ⟨m, e, hm⟩ := IMap.mem_of_get? hg
      exact absurd (by rw [hk _ hm]; exact e) (hno _ hm)

/-- Without addresses there is no subname that has none. -/
theorem not_homeless (hu : p.settings.codeUrl = none) (parent t : Str) : ¬ Homeless F p parent t := by
  rintro ⟨loc, ps, s, _, _, _, fmt, e, _⟩
  have e : p.settings.codeUrl = some fmt := e
  rw [hu] at e; cases e

theorem text_safe (h : ReadsProject L readToml hash ncpu fs base (.ok (c, p))) (hu : p.settings.codeUrl = none) (hB : ∀ html, B.node html = true) {P : Proj}
    {parent t : Str} (hn : (B.painter F).text p P parent t = none) : longS ∈ parent ∨ longS ∈ t := by
  by_contra hc
  rw [not_or] at hc
  rcases (C60_text h P parent t).1 hn with hn | ⟨_, _, hn⟩
  · exact not_homeless hu _ _ ((C60_typed F p hc.1 hc.2).1 hn)
  · rw [hB] at hn; cases hn

theorem page_safe (h : ReadsProject L readToml hash ncpu fs base (.ok (c, p))) (hu : p.settings.codeUrl = none) (hB : ∀ html, B.node html = true) (hS : B.Searches)
    {u : UI} (hs : Whole.Shows u.shared p) {n : Nav} (hn : CannotDraw (B.painter F) u p n) :
    ∃ id e, u.view = .edit id ∧ u.editing.get? id = some e ∧ (longS ∈ e.name ∨ longS ∈ e.text) := by
  rcases hn with ⟨_, re, _, hn⟩ | ⟨m, a, _, hg, hn | hn⟩ | ⟨id, e, h1, h2, hn⟩
  · obtain ⟨d, _, _, _, _, _, _, h1 | h1⟩ := C60_graph (F := F) h hS u.shared re
    · rw [hn] at h1; cases h1.1
    · have := h1.2; unfold Browser.Torn at this; rw [hB] at this; cases this
  · obtain ⟨x, hx, _, rfl⟩ := (get_of_shows h hs m a).1 hg
    obtain ⟨d, _, h1 | h1⟩ := C60_part (F := F) (B := B) h hx u.shared
    · rw [hn] at h1; cases h1.1
    · have := h1.2; unfold Browser.Torn at this; rw [hB] at this; cases this
  · obtain ⟨x, hx, _, rfl⟩ := (get_of_shows h hs m a).1 hg
    rcases (C60_stored (F := F) (B := B) h hx u.shared).1 hn with hn | ⟨_, _, hn⟩
    · exact absurd hn (not_homeless hu _ _)
    · rw [hB] at hn; cases hn
  · exact ⟨id, e, h1, h2, text_safe h hu hB hn⟩

/-- C60. If the browser accepts all HTML and there are no addresses for code, then nothing breaks the page of a project that could be read but the letter `ſ` in a form, a name that
is none when saving, and a name that cannot be routed when closing a form. -/
theorem C60_safe (h : ReadsProject L readToml hash ncpu fs base (.ok (c, p))) (hu : p.settings.codeUrl = none) (hB : ∀ html, B.node html = true) (hS : B.Searches)
    {nd : Char → Bool} {lim : Nat} {q : Page Project} (hr : Reached (B.painter F) nd lim q) (hq : q.rest = p) (hs : Whole.Shows q.world.ui.shared p)
    {e : Elem} {a : Act} (he : e ∈ q.shown) (ho : e.Offers a) (hp : (B.painter F).perform nd lim q a = .panic) :
    Breaks q.world.ui a ∨
    (∃ id v, longS ∈ v ∧ (a = .msg (.editArtifact id (.name v)) ∨ a = .msg (.editArtifact id (.text v)))) ∨
    ∃ id ed, q.world.ui.editing.get? id = some ed ∧ (longS ∈ ed.name ∨ longS ∈ ed.text) := by
  rcases (C60_controls hr he ho).1 hp with hb | hb
  · exact Or.inl hb
  right
  rw [hq] at hb
  match a, hb with
  | .go hh, hb =>
    obtain ⟨v, _, hc⟩ := hb
    obtain ⟨id, ed, _, h2, h3⟩ := page_safe (u := { q.world.ui with view := v }) h hu hB hS hs hc
    exact Or.inr ⟨id, ed, h2, h3⟩
  | .nav (.setGraph v), hb =>
    obtain ⟨_, re, _, hn⟩ := hb
    obtain ⟨d, _, _, _, _, _, _, h1 | h1⟩ := C60_graph (F := F) h hS q.world.ui.shared re
    · rw [hn] at h1; cases h1.1
    · have := h1.2; unfold Browser.Torn at this; rw [hB] at this; cases this
  | .msg (.editArtifact id (.name v)), hb =>
    obtain ⟨ed, _, h2, hn⟩ := hb
    rcases text_safe h hu hB hn with hl | hl
    · exact Or.inl ⟨id, v, hl, Or.inl rfl⟩
    · exact Or.inr ⟨id, ed, h2, Or.inr hl⟩
  | .msg (.editArtifact id (.text v)), hb =>
    obtain ⟨ed, _, h2, hn⟩ := hb
    rcases text_safe h hu hB hn with hl | hl
    · exact Or.inr ⟨id, ed, h2, Or.inl hl⟩
    · exact Or.inl ⟨id, v, hl, Or.inr rfl⟩
  | .msg (.stopEdit id), hb =>
    obtain ⟨_, v, _, _, _, _, hc⟩ := hb
    obtain ⟨id, ed, _, h2, h3⟩ := page_safe (u := { q.world.ui with view := v }) h hu hB hS hs hc
    exact Or.inr ⟨id, ed, h2, h3⟩
  | .create, hb =>
    rcases text_safe h hu hB hb.2 with hl | hl <;> cases hl

/-- C60. What is shown for a text: its pieces in order, with links for references, the places of subnames and drawings of graphs, as HTML made by the markdown library. Two things
are needed: places and their addresses have no line break, and no line in a graph begins with a fence that goes on with a reference (`C60_fence` shows why). -/
theorem C60_drawn (h : ReadsProject L readToml hash ncpu fs base (.ok (c, p))) (P : Proj) {parent t html : Str} (hl : OneLine F p parent)
    (ht : ∀ ps a b, Cut true t ps → Piece.graph a b ∈ ps → NoTickRef b) (hd : (B.painter F).text p P parent t = some html) :
    ∃ ps fs, Cut true t ps ∧ List.Forall₂ (PieceDrawn B F p parent) ps fs ∧ html = c!"<div>" ++ B.commonmark fs.flatten ++ c!"</div>" := by
  have hd : B.textHtml F p parent t = some html := hd
  unfold Browser.textHtml at hd
  cases hr : (pageMd p).replace F parent t with
  | err e => rw [hr] at hd; cases hd
  | panic => rw [hr] at hd; cases hd
  | ok md =>
    rw [hr] at hd
    obtain ⟨ps, fs, h1, h2, h3⟩ := replace_drawn B (read_readable h) hl ht hr
    refine ⟨ps, fs, h1, h2, ?_⟩
    simp only [Browser.asNode] at hd
    split_ifs at hd
    cases hd
    rw [← h3]; rfl

end real

/-! ## what breaks the page -/

/-- C60. A reference that breaks the page when it is typed, whatever the browser and the project are: while it is typed the text below the form cannot be shown. -/
theorem C60_typed_crash {B : Browser} {F : ExportLibs} {nd : Char → Bool} {lim : Nat} {q : Page Project} (hr : Reached (B.painter F) nd lim q) {id : Nat} {ed : Edit}
    (hv : q.world.ui.view = .edit id) (hg : q.world.ui.editing.get? id = some ed) {e : Elem} (he : e ∈ q.shown)
    (ho : e.Offers (.msg (.editArtifact id (.text c!"[[ſPC-a]]")))) :
    (B.painter F).perform nd lim q (.msg (.editArtifact id (.text c!"[[ſPC-a]]"))) = .panic := by
  refine (C60_controls hr he ho).2 (Or.inr ⟨ed, hv, hg, ?_⟩)
  show B.textHtml F q.rest ed.name c!"[[ſPC-a]]" = none
  exact textHtml_none.2 (Or.inl fun md h => by rw [C55_typed_crash] at h; cases h)

/-- C60. A text that closes the element around it breaks the page where it is shown: the HTML has then two nodes. The assumptions say what the libraries do with this text. -/
theorem C60_torn {B : Browser} (F : ExportLibs) (p : Project) (P : Proj) (parent : Str) (h1 : B.commonmark c!"</div>x" = c!"</div>x\n")
    (h2 : B.node c!"<div></div>x\n</div>" = false) : (B.painter F).text p P parent c!"</div>x" = none := by
  have e : (pageMd p).replace F parent c!"</div>x" = .ok c!"</div>x" := by rfl
  refine textHtml_none.2 (Or.inr ⟨_, e, ?_⟩)
  show B.node (c!"<div>" ++ B.commonmark (B.drawGraphs c!"</div>x") ++ c!"</div>") = false
  have e2 : B.drawGraphs c!"</div>x" = c!"</div>x" := by rfl
  rw [e2, h1]; exact h2

/-- The graph in which a line begins with a fence that goes on with a reference. -/
def fenceText : Str := c!"```dot\na\n```[[SPC-x]]\nb\n```"

/-- C60. Why `C60_drawn` excludes such graphs: for the first search the whole text is one graph. It puts the node for the reference on a new line, so that the fence before it ends the
graph for the second search. -/
theorem C60_fence (B : Browser) : ∃ out rest, (pageMd exProject).replace exF c!"SPC-a" fenceText = .ok out ∧
    Cut true fenceText [.graph c!"```dot" c!"a\n```[[SPC-x]]\nb\n"] ∧ B.drawGraphs out = B.svgBlock c!"a\n" ++ rest := by
  have e1 : (pageMd exProject).replace exF c!"SPC-a" fenceText = .ok (c!"```dot\na\n```" ++ dneNameDot (nm "SPC-x") none ++ c!"\nb\n\n```") := by decide +kernel
  have e2 : fenceHere true (c!"```dot\na\n```" ++ dneNameDot (nm "SPC-x") none ++ c!"\nb\n\n```") =
    some (c!"a\n", dneNameDot (nm "SPC-x") none ++ c!"\nb\n\n```") := by decide +kernel
  obtain ⟨k, e3⟩ : ∃ k, (c!"```dot\na\n```" ++ dneNameDot (nm "SPC-x") none ++ c!"\nb\n\n```").length = k + 1 := ⟨_, rfl⟩
  refine ⟨_, Browser.drawGraphs.go B k false (dneNameDot (nm "SPC-x") none ++ c!"\nb\n\n```"), e1, ?_, ?_⟩
  · have e4 : (replHere true fenceText).map (fun m => match m with
        | .dot m => (Caps.get m.2.2 1, Caps.get m.2.2 2, m.2.1)
        | _ => (none, none, [])) = some (some c!"```dot", some c!"a\n```[[SPC-x]]\nb\n", []) := by decide +kernel
    cases hr : replHere true fenceText with
    | none => rw [hr] at e4; cases e4
    | some m =>
      rw [hr] at e4
      obtain ⟨x, ho, hf⟩ := replHere_some hr
      cases m with
      | sub m => cases e4
      | ref m => cases e4
      | dot m =>
        cases x with
        | plain c => cases ho
        | sub s => cases ho
        | ref n s => cases ho
        | graph head body =>
          obtain ⟨rest, rfl⟩ := ho
          obtain ⟨rfl, rfl, rfl⟩ : head = c!"```dot" ∧ body = c!"a\n```[[SPC-x]]\nb\n" ∧ rest = [] := by
            have e4 : some (some head, some body, rest) = some (some c!"```dot", some c!"a\n```[[SPC-x]]\nb\n", ([] : Str)) := e4
            simpa using e4
          cases hf with
          | graph hg => exact .graph hg .nil
  · unfold Browser.drawGraphs
    rw [e3, Browser.drawGraphs.go.eq_def]
    simp only [e2]

/-! ## examples -/

/-- The artifacts found by a search and their neighbours, in the order of the project. -/
def searchNow (p : Project) (re : Str → Bool) : Res Unit Str :=
  let focus := p.artifacts.filter fun x => re x.1.raw
  do
    let nodes ← Res.mapM' (p.focusDot focus) focus
    pure (wrapDot (nodes.flatten ++ ((ISet.collect (focus.flatMap focusConnections)).map fun c => connectDot c.1 c.2).flatten) false)

/-- A browser: graphs are drawn as a word, markdown does nothing, HTML is refused if a text follows the end of an element in it. -/
def exB : Browser :=
  ⟨fun _ => c!"<svg/>", id, fun s => s.tails.all (fun t => !(c!"</div>x".isPrefixOf t)), fun _ => c!"0.0", exK.compile, searchNow⟩

theorem exB_searches : exB.Searches := fun _ _ => ⟨_, _, List.Perm.refl _, List.Perm.refl _, rfl⟩

/-- Both cases of `C60_message`. -/
example : exB.node c!"<div>Received 500 from server: <b>x</b></div>" = true ∧ exB.node c!"<div>Received 500 from server: </div>x</div>" = false := by decide +kernel

/-- What is shown for the texts of a project with links, subnames and a graph. -/
theorem exDoc_drawn : (exDoc none).toOption.map (fun r => r.2.artifacts.map fun x => (exB.painter exF).text r.2 [] x.2.name.raw x.2.text) = some [
      some c!"<div>see <a style=\"font-weight: bold; color: #FF851B\" title=\"SPC-A.X\" href=\"#SPC-A\">SPC-A.X</a> and <a style=\"font-style: italic; color: #B10DC9\" title=\"SPC-GONE not found\" >SPC-gone</a></div>",
      some c!"<div>how <span title=\"/p/src/x.rs[1]\" style=\"color: #0074D9\"><b><i>.x</i></b></span> <span title=\"Not Implemented\" style=\"color: #FF4136\"><b><i>.y</i></b></span>\n\n<html>\n<svg/>\n</html>\n\n</div>"] := by
  decide +kernel

/-- A text without such a fence has no graph with one. -/
theorem noTickRef_text {t : Str} (h : NoTickRef t) (ps : List Piece) (a b : Str) (hc : Cut true t ps) (hm : Piece.graph a b ∈ ps) : NoTickRef b := by
  intro x y e
  obtain ⟨l1, l2, rfl⟩ := List.append_of_mem hm
  have := cut_src hc
  rw [List.flatMap_append, List.flatMap_cons] at this
  exact h (l1.flatMap Piece.src ++ (a ++ c!"\n") ++ x) (y ++ c!"```" ++ l2.flatMap Piece.src) (by rw [← this, Piece.src, e]; simp)

theorem oneLine_of {F : ExportLibs} {p : Project} (hu : p.settings.codeUrl = none) (hf : ∀ x ∈ p.codeImpls, ∀ y ∈ x.2.secondary, '\n' ∉ y.2.file) (parent : Str) :
    OneLine F p parent := by
  refine ⟨?_, fun s loc fmt u _ e => by rw [hu] at e; cases e⟩
  rintro s loc ⟨n, t, ⟨x, h1, h2⟩, _⟩
  exact hf _ h1 _ h2

/-- `C60_text`, `C60_stored`, `C60_part`, `C60_graph`, `C60_colour`, `C60_page` and `C60_drawn` apply to it. -/
example : ∃ c p, ReadsProject urlLibs (fun _ => some (exUrlRaw none)) exId 4 exDocFs c!"/p" (.ok (c, p)) ∧ exB.Searches ∧ p.artifacts.length = 2 ∧
    ∀ x ∈ p.artifacts, OneLine exF p x.2.name.raw ∧ (∀ ps a b, Cut true x.2.text ps → Piece.graph a b ∈ ps → NoTickRef b) ∧
      (exB.painter exF).text p [] x.2.name.raw x.2.text ≠ none := by
  have r := exDoc_reads none
  have e : (exDoc none).toOption.map (fun r => (r.2.artifacts.map fun x => x.2.text.tails.all (fun t => !(c!"```[[".isPrefixOf t)), r.2.settings.codeUrl,
    r.2.codeImpls.all fun x => x.2.secondary.all fun y => !(y.2.file.contains '\n'))) = some ([true, true], none, true) := by decide +kernel
  have d := exDoc_drawn
  generalize exDoc none = o at e r d
  cases o with
  | err e' => cases e
  | panic => cases e
  | ok x =>
    obtain ⟨c, p⟩ := x
    simp only [Res.toOption, Option.map_some, Option.some.injEq, Prod.mk.injEq] at e d
    obtain ⟨e1, e2, e3⟩ := e
    refine ⟨c, p, r, exB_searches, by simpa using congrArg List.length e1, fun x hx => ⟨oneLine_of e2 ?_ _, ?_, ?_⟩⟩
    · intro x hx y hy
      have := List.all_eq_true.1 (List.all_eq_true.1 e3 x hx) y hy
      simpa using this
    · have h1 : x.2.text.tails.all (fun t => !(c!"```[[".isPrefixOf t)) = true := by
        have := List.mem_map_of_mem (f := fun x => x.2.text.tails.all (fun t => !(c!"```[[".isPrefixOf t))) hx
        rw [e1] at this
        simpa using this
      refine noTickRef_text fun u v e => ?_
      have := List.all_eq_true.1 h1 (c!"```[[" ++ v) ((List.mem_tails _ _).2 ⟨u, e.symm⟩)
      simp at this
    · have := List.mem_map_of_mem (f := fun x => (exB.painter exF).text p [] x.2.name.raw x.2.text) hx
      rw [d] at this
      intro hn
      rw [hn] at this
      simp at this

/-- A browser that accepts all HTML. -/
def exB2 : Browser := { exB with node := fun _ => true }

/-- The artifacts of a project as a page has them. -/
def looks (p : Project) : Proj := p.artifacts.map fun x => (x.1, Whole.look x.2)

/-- The page of the example project is opened at an artifact, and then the edit button is used. -/
def exG0 : Page Project := ((exB2.painter exF).start exNd 1000 (looks exProject) exProject c!"REQ-a").toOption.getD ⟨World.init [] .notFound, exProject, ⟨true, [], true, [], []⟩, []⟩
def exG1 : Page Project := ((exB2.painter exF).perform exNd 1000 exG0 .edit).toOption.getD exG0

theorem ok_getD {ε α : Type} {r : Res ε α} {d : α} (h : r.isOk = true) : r = .ok (r.toOption.getD d) := by
  cases r with
  | ok a => rfl
  | err e => cases h
  | panic => cases h

theorem exG0_reached : Reached (exB2.painter exF) exNd 1000 exG0 :=
  ⟨looks exProject, exProject, c!"REQ-a", exG0, [], ok_getD (by decide +kernel), .nil _⟩

/-- Whether this is the edit button. -/
def isEdit : Elem → Bool
  | .button _ .edit => true
  | _ => false

theorem exG0_edit : ∃ e ∈ exG0.shown, e.Offers .edit := by
  have h : exG0.shown.any isEdit = true := by decide +kernel
  obtain ⟨e, he, h⟩ := List.any_eq_true.1 h
  refine ⟨e, he, ?_⟩
  unfold isEdit at h
  split at h
  · exact .button _ _
  · cases h

theorem exG1_reached : Reached (exB2.painter exF) exNd 1000 exG1 := by
  obtain ⟨e, he, ho⟩ := exG0_edit
  exact exG0_reached.step (.used he ho (ok_getD (by decide +kernel)))

/-- Whether typing `s` into this changes the text of the form with this number to `s`. -/
def typesText (id : Nat) (s : Str) : Elem → Bool
  | .input _ _ f => match f s with
    | .msg (.editArtifact i (.text t)) => decide (i = id ∧ t = s)
    | _ => false
  | _ => false

theorem offers_text {id : Nat} {s : Str} {l : List Elem} (h : l.any (typesText id s) = true) : ∃ e ∈ l, e.Offers (.msg (.editArtifact id (.text s))) := by
  obtain ⟨e, he, h⟩ := List.any_eq_true.1 h
  refine ⟨e, he, ?_⟩
  unfold typesText at h
  split at h
  · rename_i i v f
    split at h
    · rename_i hf
      obtain ⟨rfl, rfl⟩ := of_decide_eq_true h
      rw [← hf]
      exact .input _ _ _ _
    · cases h
  · cases h

/-- `C60_typed_crash`: typing the reference into the form breaks the page. -/
example : (exB2.painter exF).perform exNd 1000 exG1 (.msg (.editArtifact 0 (.text c!"[[ſPC-a]]"))) = .panic := by
  obtain ⟨e, he, ho⟩ := offers_text (l := exG1.shown) (id := 0) (s := c!"[[ſPC-a]]") (by decide +kernel)
  have hv : (match exG1.world.ui.view with | .edit id => some id | _ => none) = some 0 := by decide +kernel
  have hg : (exG1.world.ui.editing.get? 0).isSome = true := by decide +kernel
  obtain ⟨ed, hg⟩ := Option.isSome_iff_exists.1 hg
  refine C60_typed_crash exG1_reached ?_ hg he ho
  split at hv
  · rename_i h; cases hv; exact h
  · cases hv

deriving instance DecidableEq for Shown

theorem exG1_rest : exG1.rest = exProject := by decide +kernel
theorem exG1_shared : exG1.world.ui.shared = looks exProject := by decide +kernel
theorem exG1_shows : Whole.Shows exG1.world.ui.shared exProject := by rw [exG1_shared]; exact List.Perm.refl _
theorem exG1_plain : exG1.world.ui.editing.all (fun x => !(x.2.name.contains longS) && !(x.2.text.contains longS)) = true := by decide +kernel
theorem exG1_text : ∃ e ∈ exG1.shown, e.Offers (.msg (.editArtifact 0 (.text c!"[[SPC-b]] and [[REQ-none]]"))) := offers_text (by decide +kernel)

/-- `C60_safe`, `C60_controls`: typing `[[SPC-b]] and [[REQ-none]]` does not. -/
example : (exB2.painter exF).perform exNd 1000 exG1 (.msg (.editArtifact 0 (.text c!"[[SPC-b]] and [[REQ-none]]"))) ≠ .panic := by
  obtain ⟨e, he, ho⟩ := exG1_text
  have hu : exProject.settings.codeUrl = none := by decide +kernel
  have hp := exG1_plain
  have key := fun h => C60_safe exProject_read hu (B := exB2) (fun _ => rfl) (fun p re => exB_searches p re) exG1_reached exG1_rest exG1_shows he ho h
  generalize exG1 = q at *
  intro h
  rcases key h with h | h | h
  · obtain ⟨id, ed, _, _, ⟨h, _⟩ | ⟨h, _⟩⟩ := h <;> cases h
  · obtain ⟨id, v, hv, h | h⟩ := h <;> cases h
    revert hv; decide
  · obtain ⟨id, ed, hg, h⟩ := h
    obtain ⟨_, _, hm⟩ := IMap.mem_of_get? hg
    have := List.all_eq_true.1 hp _ hm
    simp at this
    exact h.elim this.1 this.2

/-- `C60_torn`: the browser of the first example refuses the text. -/
example : (exB.painter exF).text exProject [] c!"SPC-a" c!"</div>x" = none := by decide +kernel
example : exB.node c!"<div></div>x\n</div>" = false := by decide +kernel

end Web
end Art
