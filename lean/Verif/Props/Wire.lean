import Verif.Lemmas.WireMsg
import Verif.Props.Serve

/-!
# Property C63: what is sent is what arrives
-/

namespace Art
open Spec Whole

/-! ## calls of the page -/

/-- The server takes the body of every call of the page for exactly that call, with its number; only the request for `initial.json` has no body. -/
theorem C63_request (q : Web.Req) {jid : Nat} (hq : Asks q jid) (hj : jid < 2 ^ 63) :
    ∃ body r, q.body = some body ∧ wireReq q = some r ∧ requestOf body = (.num (showNat jid), r) := by
  cases q with
  | initial => cases hq
  | read j reload =>
    cases hq
    exact ⟨_, _, rfl, rfl, request_read hj reload⟩
  | modify j ops =>
    cases hq
    refine ⟨_, _, rfl, rfl, ?_⟩
    have := request_modify hj (ops.map wireOp)
    rw [List.map_map] at this
    exact this

theorem wireIm_inj {a b : ArtifactIm} (h : wireIm a = wireIm b) : a = b := by
  obtain ⟨n, f, p, d, t⟩ := a
  obtain ⟨n', f', p', d', t'⟩ := b
  simp only [wireIm, WireIm.mk.injEq] at h
  obtain ⟨h1, rfl, h3, rfl, rfl⟩ := h
  have h3 : p = p' := List.map_injective_iff.2 (fun _ _ => name_of_raw) h3
  rw [name_of_raw h1, h3]

theorem wireOp_inj {a b : ArtifactOp} (h : wireOp a = wireOp b) : a = b := by
  cases a <;> cases b <;> simp only [wireOp, WireOp.create.injEq, WireOp.update.injEq, WireOp.delete.injEq, reduceCtorEq] at h
  · rw [wireIm_inj h]
  · rw [wireIm_inj h.1, (C31_text _ _).2.2 h.2]
  · rw [name_of_raw h.1, (C31_text _ _).2.2 h.2]

/-- Two calls with the same body are the same call: same number, same operations in the same order. -/
theorem C63_injective {q q' : Web.Req} {j j' : Nat} (hq : Asks q j) (hq' : Asks q' j') (hj : j < 2 ^ 63) (hj' : j' < 2 ^ 63) (h : q.body = q'.body) : q = q' := by
  obtain ⟨b, r, h1, h2, h3⟩ := C63_request q hq hj
  obtain ⟨b', r', h1', h2', h3'⟩ := C63_request q' hq' hj'
  rw [h1, h1'] at h
  cases h
  rw [h3] at h3'
  obtain ⟨e1, rfl⟩ := Prod.mk.inj h3'
  have e : j = j' := by
    have := Json.num.inj e1
    have := congrArg decVal this
    rwa [decVal_showNat, decVal_showNat] at this
  subst e
  rw [← h2'] at h2
  cases q <;> cases q' <;> cases hq <;> cases hq'
  · cases h2; rfl
  · cases h2
  · cases h2
  · rename_i ops ops'
    have : ops.map wireOp = ops'.map wireOp := by simpa [wireReq] using h2
    rw [List.map_injective_iff.2 (fun _ _ => wireOp_inj) this]

/-! ## answers of the server -/

/-- The page can read every answer with a sound project and gets the number of its call, the export settings, and the whole project, up to the order of the entries of maps. -/
theorem C63_answer (strict : Bool) {w : ℚ → Str} {read : Str → Option ℚ} (e : WireExport) {r : ProjectResult} (hp : ProjectSound r.project) (hr : RatiosBack w read r.project)
    (hl : LintsSound r.lints) {jid : Nat} (hj : jid < 2 ^ 63) (msg : Str) :
    ∃ body q, Reply.body w e msg (.num (showNat jid)) (.success r) = some body ∧ gotOf strict read body = .ok (.project (.num (showNat jid)) e q) ∧ SameProject r.project q := by
  obtain ⟨b, q, h1, h2, h3⟩ := got_project strict (x := e) hp hr hl hj msg
  exact ⟨b, q, h1, h2, sameProject_of h3⟩

theorem doneStr_same {i j : Impl} (h : SameImpl i j) : j.doneStr = i.doneStr := by
  cases i with
  | done s => rw [show j = .done s from h]
  | notImpl => rw [show j = .notImpl from h]
  | code c => obtain ⟨d, rfl, _⟩ := h; rfl

theorem look_same {a b : Artifact} (h : SameArt a b) : look b = look a := by
  obtain ⟨h1, h2, h3, h4, h5, h6, h7, h8, h9⟩ := h
  unfold look
  rw [h1, h2, h3, h4, h7, doneStr_same h8]

theorem map_forall₂ {α β γ : Type} {R : α → β → Prop} {f : α → γ} {g : β → γ} (hfg : ∀ x y, R x y → g y = f x) {l : List α} {m : List β} (h : List.Forall₂ R l m) :
    m.map g = l.map f := by
  induction h with
  | nil => rfl
  | cons h _ ih => rw [List.map_cons, List.map_cons, ih, hfg _ _ h]

/-- What arrives is, for the page, what was sent. -/
theorem becomes_same (strict : Bool) {p q : Project} (hp : ProjectSound p) (h : SameProject p q) :
    (wireProject q).Perm (wireProject p) ∧ readShared strict (wireProject q) = .ok q.forPage := by
  obtain ⟨_, _, k, h1, h2⟩ := h
  have e1 : k.map (fun x => (x.1.raw, wireArt x.2)) = wireProject p := by
    refine map_forall₂ ?_ h1
    intro x y h
    obtain ⟨h1, h2, h3, h4, h5, h6, h7, h8, h9⟩ := h.2
    unfold wireArt
    rw [h1, h2, h3, h4, h7, doneStr_same h8, h.1]
  refine ⟨((h2.map _).symm).trans (List.Perm.of_eq e1), ?_⟩
  have hlq : ∀ y ∈ q.artifacts, ISet.Nodup y.2.partof := by
    intro y hy
    obtain ⟨x, hx, _, hs⟩ := forall₂_mem_right h1 (h2.mem_iff.2 hy)
    rw [← hs.2.2.2.1]
    exact (hp.art x hx).partof
  have hn : IMap.Nodup q.artifacts := by
    refine (IMap.nodup_perm h2).1 (IMap.nodup_of_fst hp.arts ?_)
    exact map_forall₂ (fun x y h => h.1.symm) h1
  have h0 : Res.mapM' (readEntry strict) (wireProject q) = .ok q.forPage := by
    unfold wireProject
    rw [mapM'_of_map]
    refine mapM'_map fun x hx => ?_
    unfold readEntry
    simp only [wireName_raw, wireArt_read strict (hlq x hx), Res.bind_ok]
    rfl
  unfold readShared
  rw [h0]
  simp only [Res.bind_ok]
  have : IMap.collect q.forPage = q.forPage := IMap.collect_of_nodup (IMap.nodup_of_fst hn (by unfold Project.forPage; rw [List.map_map]; rfl))
  rw [this]
  rfl

theorem shows_same {p q : Project} (h : SameProject p q) : Whole.Shows q.forPage p := by
  obtain ⟨_, _, k, h1, h2⟩ := h
  have e : k.map (fun x => (x.1, look x.2)) = p.artifacts.map fun x => (x.1, look x.2) := map_forall₂ (fun x y h => by rw [look_same h.2, h.1]) h1
  exact ((h2.map _).symm).trans (List.Perm.of_eq e)

theorem handle_project (P : PageLibs) {w : ℚ → Str} (e : WireExport) {r : ProjectResult} (hp : ProjectSound r.project) (hr : RatiosBack w P.read r.project)
    (hl : LintsSound r.lints) {jid : Nat} (hj : jid < 2 ^ 63) (msg status : Str) :
    ∃ body q, Reply.body w e msg (.num (showNat jid)) (.success r) = some body ∧ handleResponse P true status body = .ok (some (.recvProject jid q.forPage)) ∧ SameProject r.project q := by
  obtain ⟨b, q, h1, h2, h3⟩ := C63_answer P.strict e hp hr hl hj msg
  refine ⟨b, q, h1, ?_, h3⟩
  simp [handleResponse, h2, Got.msg, decVal_showNat]

theorem handle_error (P : PageLibs) {w : ℚ → Str} (e : WireExport) {jid : Nat} (hj : jid < 2 ^ 63) (msg status : Str) {a : Reply} (ha : ∀ r, a ≠ .success r) {body : Str}
    (hb : Reply.body w e msg (.num (showNat jid)) a = some body) : ∃ logs, handleResponse P true status body = .ok (some (.recvError logs)) := by
  have hid : deId (.num (showNat jid)) = .ok (.num (showNat jid)) := by simp [deId, isI64_showNat hj]
  cases a with
  | dropped => cases hb
  | success r => exact absurd rfl (ha r)
  | rejected =>
    cases hb
    have := got_error P.strict P.read (d := 0) (by omega) (id := .null) (fine_null _) rfl (code := c!"-32600") (jsonNum_neg (by decide)) (by decide) msg (data := none) (by simp)
    exact ⟨_, by simp only [handleResponse, if_true, this, Res.bind_ok]; rfl⟩
  | invalidParams =>
    cases hb
    have := got_error P.strict P.read (d := 0) (by omega) (fine_num _ (jsonNum_showNat jid)) hid (code := c!"-32602") (jsonNum_neg (by decide)) (by decide) msg (data := none) (by simp)
    exact ⟨_, by simp only [handleResponse, if_true, this, Res.bind_ok]; rfl⟩
  | serverError k l =>
    cases hb
    have := got_error P.strict P.read (d := 3) (by omega) (fine_num _ (jsonNum_showNat jid)) hid (code := c!"-32000") (jsonNum_neg (by decide)) (by decide) k.wire
      (data := some l.toJson.value) (fun v hv => by cases hv; exact fine_value (fine_categorized 0 l))
    exact ⟨_, by simp only [handleResponse, if_true, this, Res.bind_ok]; rfl⟩

/-- Whatever a server that runs sends, the page can read it: every answer with a project becomes that project with the number of the call, every other answer becomes
an error that is shown. This is what the model of the whole system (`Whole.Becomes`) says of answers, without their texts. -/
theorem C63_becomes (P : PageLibs) {E : Env} {fs : FS} {dir repo : FilePath} {s t : Server} {hist : List Art.Event} (hst : Starts E fs dir repo s) (h : Art.Runs E s hist t)
    {w : ℚ → Str} (hn : NumbersBack w P.read) (e : WireExport) (msg status : Str) {i : Nat} {r : Request} {a : Reply} (hf : Art.Event.finish i r a ∈ hist)
    (hfit : ∀ x, a = .success x → LinesFit x.project) {q : Web.Req} {jid : Nat} (hq : Asks q jid) (hj : jid < 2 ^ 63) {body : Str}
    (hb : Reply.body w e msg (.num (showNat jid)) a = some body) :
    ∃ m, handleResponse P true status body = .ok (some m) ∧ Becomes P.strict q a m ∧ (∀ x, a = .success x → ∃ S, m = .recvProject jid S ∧ Whole.Shows S x.project) ∧
      ((∀ x, a ≠ .success x) → ∃ logs, m = .recvError logs) := by
  by_cases ha : ∃ x, a = .success x
  · obtain ⟨x, rfl⟩ := ha
    obtain ⟨h1, h2⟩ := (served_fits hst h).2 _ _ _ hf
    have hl := hfit x rfl
    have hp := h1.sound hl
    obtain ⟨b, p, hb', h3, h4⟩ := handle_project P e hp (h1.back hn) (h2 hl) hj msg status
    rw [hb] at hb'
    cases hb'
    obtain ⟨h5, h6⟩ := becomes_same P.strict hp h4
    refine ⟨_, h3, ?_, ?_, fun hx => absurd rfl (hx x)⟩
    · cases q with
      | initial => cases hq
      | read j rl => cases hq; exact .read h5 h6
      | modify j ops => cases hq; exact .modify h5 h6
    · intro y hy
      cases hy
      exact ⟨_, rfl, shows_same h4⟩
  · have ha : ∀ x, a ≠ .success x := fun x hx => ha ⟨x, hx⟩
    obtain ⟨logs, hl⟩ := handle_error P e hj msg status ha hb
    exact ⟨_, hl, .error ha, fun x hx => absurd hx (ha x), fun _ => ⟨_, rfl⟩⟩

/-- The page does not show the lints of a project that was saved or reloaded: two answers that differ in their lints only become the same message. -/
theorem C63_lints_unseen (P : PageLibs) {w : ℚ → Str} (e : WireExport) {p : Project} (hp : ProjectSound p) (hr : RatiosBack w P.read p) {l l' : Categorized}
    (hl : LintsSound l) (hl' : LintsSound l') {jid : Nat} (hj : jid < 2 ^ 63) (msg status : Str) {body body' : Str}
    (hb : Reply.body w e msg (.num (showNat jid)) (.success ⟨p, l⟩) = some body) (hb' : Reply.body w e msg (.num (showNat jid)) (.success ⟨p, l'⟩) = some body') :
    ∃ m, handleResponse P true status body = .ok (some m) ∧ handleResponse P true status body' = .ok (some m) := by
  obtain ⟨q, hq⟩ := got_lints P.strict (x := e) hp hr hj msg
  obtain ⟨b, h1, h2⟩ := hq l hl
  obtain ⟨b', h1', h2'⟩ := hq l' hl'
  cases hb.symm.trans h1
  cases hb'.symm.trans h1'
  refine ⟨.recvProject jid q.forPage, ?_, ?_⟩ <;> simp [handleResponse, h2, h2', Got.msg, Json.ofNat, decVal_showNat]

/-! ## projects as texts -/

/-- `Project::to_ser` never panics for a project that was read and changes nothing, not even the order of maps. -/
theorem C63_toSer (strict : Bool) {w : ℚ → Str} {read : Str → Option ℚ} (hn : NumbersBack w read) (e : WireExport) {L : Libs} {readToml : Str → Option SettingsRaw}
    {hash : ArtifactIm → HashIm} {ncpu : Nat} {fs : FS} {base : FilePath} {c : Categorized} {p : Project} (h : ReadsProject L readToml hash ncpu fs base (.ok (c, p)))
    (hf : FilesFit fs) : p.toSer strict w read e = .ok (e, p) := by
  have h1 := read_sendable h
  have hp := h1.sound (read_lines h hf)
  have hr := h1.back hn
  obtain ⟨q, hq, hs⟩ := deProject_same (keep := true) strict (x := e) hp hr (alike_refl _ _)
  unfold Project.toSer
  rw [(fine_project 0 e hp hr).parse (by omega)]
  simp only [hq]
  rw [hs.eq]

/-- The page that reads `initial.json` of `art export html` shows exactly the project that was read, in its order; what `art serve` puts there has no project. -/
theorem C63_static (P : PageLibs) {w : ℚ → Str} (hn : NumbersBack w P.read) (e : WireExport) (status : Str) {L : Libs} {readToml : Str → Option SettingsRaw}
    {hash : ArtifactIm → HashIm} {ncpu : Nat} {fs : FS} {base : FilePath} {c : Categorized} {p : Project} (h : ReadsProject L readToml hash ncpu fs base (.ok (c, p)))
    (hf : FilesFit fs) (t : Web.WebType) :
    handleInitial P true status (initialJson w e (some p) t).show = .ok (.recvInitial (some (p.artifacts.map fun x => (x.1, look x.2))) t) ∧
      handleInitial P true status (initialJson w e none t).show = .ok (.recvInitial none t) := by
  have h1 := read_sendable h
  have hp := h1.sound (read_lines h hf)
  have hr := h1.back hn
  obtain ⟨q, hq, hs⟩ := deInitial_same (keep := true) P.strict (x := e) (t := t) hp hr (alike_refl _ _)
  constructor
  · simp only [handleInitial, if_true, (fine_initial 0 e (p := some p) t (by rintro _ ⟨⟩; exact ⟨hp, hr⟩)).parse (by omega), hq]
    rw [hs.eq]
    rfl
  · simp only [handleInitial, if_true, (fine_initial 0 (read := P.read) (w := w) e (p := none) t (by simp)).parse (by omega), deInitial_none P.strict (alike_refl true _)]
    rfl

/-- Two projects that were read have the same text only if they are the same and the export settings are, too. -/
theorem C63_text_injective {w : ℚ → Str} {read : Str → Option ℚ} (hn : NumbersBack w read) {L L' : Libs} {readToml readToml' : Str → Option SettingsRaw}
    {hash hash' : ArtifactIm → HashIm} {ncpu ncpu' : Nat} {fs fs' : FS} {base base' : FilePath} {c c' : Categorized} {p p' : Project}
    (h : ReadsProject L readToml hash ncpu fs base (.ok (c, p))) (hf : FilesFit fs) (h' : ReadsProject L' readToml' hash' ncpu' fs' base' (.ok (c', p'))) (hf' : FilesFit fs')
    {e e' : WireExport} (he : (p.toJson w e).show = (p'.toJson w e').show) : p = p' ∧ e = e' := by
  have h1 := C63_toSer true hn e h hf
  have h2 := C63_toSer true hn e' h' hf'
  unfold Project.toSer at h1 h2
  rw [he, h2] at h1
  cases h1
  exact ⟨rfl, rfl⟩

/-! ## `art ls --type json` -/

/-- What `art ls --type json` prints is one JSON array with an element for each name that was asked for, in that order: exactly the artifact, or `null` if there is none. -/
theorem C63_ls (strict : Bool) {w : ℚ → Str} {read : Str → Option ℚ} (hn : NumbersBack w read) {L : Libs} {readToml : Str → Option SettingsRaw}
    {hash : ArtifactIm → HashIm} {ncpu : Nat} {fs : FS} {base : FilePath} {c : Categorized} {p : Project} (h : ReadsProject L readToml hash ncpu fs base (.ok (c, p)))
    (hf : FilesFit fs) (names : List Name) :
    ∃ l, Json.parse (lsJson w p names) = some (.arr l) ∧
      List.Forall₂ (fun n v => optField (deArtifact strict read) (some v) = .ok (IMap.get? p.artifacts n)) names l := by
  have h1 := read_sendable h
  have hp := h1.sound (read_lines h hf)
  have hr := h1.back hn
  refine ⟨names.map fun n => .ofOption (Artifact.toJson w) (IMap.get? p.artifacts n), ?_, ?_⟩
  · refine Fine.parsePretty (d := 6) (fine_arr fun v hv => ?_) (by omega) 0
    obtain ⟨n, _, rfl⟩ := List.mem_map.1 hv
    refine fine_option fun a ha => ?_
    obtain ⟨m, _, hm⟩ := IMap.mem_of_get? ha
    exact fine_artifact 0 (hp.art _ hm) (hr _ hm).1 (hr _ hm).2
  · rw [List.forall₂_map_right_iff, List.forall₂_same]
    intro n _
    cases ha : IMap.get? p.artifacts n with
    | none => rfl
    | some a =>
      obtain ⟨m, _, hm⟩ := IMap.mem_of_get? ha
      obtain ⟨b, hb, hs⟩ := deArtifact_same (keep := true) strict (hp.art _ hm) (hr _ hm).1 (hr _ hm).2 (alike_refl _ _)
      rw [show b = a from hs.eq.symm] at hb
      show (do let x ← deArtifact strict read (a.toJson w); Res.ok (some x)) = _
      rw [hb]
      rfl

/-! ## lints -/

theorem newline_end {s : Str} : NumEnd ('\n' :: s) := by
  intro c hc
  cases hc
  decide

theorem pretty_cancel {v v' : Json} {d : Nat} (h : Fine d v) (h' : Fine d v') {r r' : Str} (hr : NumEnd r) (hr' : NumEnd r') (e : v.pretty 0 ++ r = v'.pretty 0 ++ r') : v = v' ∧ r = r' := by
  have h1 := readValue_of (pretty_value v 0 h.nums) _ _ h.deep hr
  have h2 := readValue_of (pretty_value v' 0 h'.nums) _ _ h'.deep hr'
  rw [e, h2] at h1
  cases h1
  exact ⟨rfl, rfl⟩

theorem lints_of_json {l l' : List Lint} (hl : ∀ x ∈ l, ∀ n, x.line = some n → LineNum n) (hl' : ∀ x ∈ l', ∀ n, x.line = some n → LineNum n)
    (e : Json.arr (l.map Lint.toJson) = Json.arr (l'.map Lint.toJson)) : l = l' := by
  have h1 : deList deLint (.arr (l.map Lint.toJson)) = .ok l := deList_same_eq (keep := true) (alike_refl _ _) fun x hx _ => deLint_same (hl x hx)
  have h2 : deList deLint (.arr (l'.map Lint.toJson)) = .ok l' := deList_same_eq (keep := true) (alike_refl _ _) fun x hx _ => deLint_same (hl' x hx)
  rw [e, h2] at h1
  cases h1
  rfl

/-- The text that is shown for lints says everything: two sets of lints with one text are the same, with all levels, paths, lines, categories and messages, in order. -/
theorem C63_lints {c c' : Categorized} (hc : LintsSound c) (hc' : LintsSound c') (h : c.display = c'.display) : c = c' := by
  unfold Categorized.display at h
  simp only [List.append_assoc] at h
  obtain ⟨e1, h⟩ := pretty_cancel (fine_lints 0 _) (fine_lints 0 _) newline_end newline_end (List.append_cancel_left h)
  obtain ⟨e2, _⟩ := pretty_cancel (fine_lints 0 _) (fine_lints 0 _) newline_end newline_end
    (List.append_cancel_left (as := c!"\n\n  ----- WARNINGS -----:\n") h)
  obtain ⟨a, b⟩ := c
  obtain ⟨a', b'⟩ := c'
  rw [show a = a' from lints_of_json (fun x hx => hc x (by simp [hx])) (fun x hx => hc' x (by simp [hx])) e1,
    show b = b' from lints_of_json (fun x hx => hc x (by simp [hx])) (fun x hx => hc' x (by simp [hx])) e2]

/-! ## settings that are left out -/

/-- The code disagrees with itself on the table of contents: settings without the part `export` have none, settings with an empty `export` have one. -/
theorem C63_toc {s : Settings} (hs : SettingsSound s) {e : WireExport} {l : List (Str × Json)} (hl : s.toJson e = .obj (l ++ [(c!"export", e.toJson)])) :
    deSettings (.obj l) = .ok (⟨none, false, .list, .ignore, .default⟩, s) ∧
      deSettings (.obj (l ++ [(c!"export", .obj [])])) = .ok (⟨none, true, .list, .ignore, .default⟩, s) := by
  have hl := List.append_inj_left' (Json.obj.inj hl) rfl (s₁ := [_, _, _, _, _, _, _, _, _])
  subst hl
  have f := fun (v : Json) => alike_refl true v
  constructor
  · rw [deSettings, deFields, show Json.fields _ _ = some _ from rfl]
    simp [needed, reqField, deStr_same (f _), deSet_same (f _) hs.code (fun _ _ _ => deStr_same), deSet_same (f _) hs.noCode (fun _ _ _ => deStr_same),
      deSet_same (f _) hs.art (fun _ _ _ => deStr_same), deSet_same (f _) hs.noArt (fun _ _ _ => deStr_same), optStr_same (f _), defField,
      deOnly_same (f _) (fun _ => deMdName_same), deOnly_same (f _) (fun _ => deMdAttrs_same), WireExport.default]
  · rw [deSettings, deFields, show Json.fields _ _ = some _ from rfl]
    simp [needed, reqField, deStr_same (f _), deSet_same (f _) hs.code (fun _ _ _ => deStr_same), deSet_same (f _) hs.noCode (fun _ _ _ => deStr_same),
      deSet_same (f _) hs.art (fun _ _ _ => deStr_same), deSet_same (f _) hs.noArt (fun _ _ _ => deStr_same), optStr_same (f _), defField,
      deOnly_same (f _) (fun _ => deMdName_same), deOnly_same (f _) (fun _ => deMdAttrs_same), show deExport (.obj []) = .ok ⟨none, true, .list, .ignore, .default⟩ from rfl]

/-! ## a concrete case -/

/-- Writes thousandths. -/
def exDec (q : ℚ) : Str := showNat (q * 1000).num.toNat ++ c!"e-3"

/-- Reads what `exDec` writes. -/
def exUndec (s : Str) : Option ℚ := some (decVal (s.take (s.length - 3)) / 1000)

theorem exNumbers : NumbersBack exDec exUndec := by
  rintro q ⟨k, _, rfl⟩
  have e : exDec (k / 1000) = showNat k ++ c!"e-3" := by
    unfold exDec
    rw [div_mul_cancel₀ _ (by norm_num)]
    simp
  unfold NumberBack
  rw [e]
  constructor
  · refine ⟨[], showNat k, [], c!"e-3", .inl rfl, jsonInt_showNat k, .inl rfl, .inr ⟨'e', ['-'], ['3'], .inl rfl, .inr (.inr rfl), ?_, rfl⟩, by simp⟩
    exact ⟨by simp, by simp⟩
  · unfold exUndec
    simp [decVal_showNat]

/-- Calls of a page: their texts are taken for them, numbers that are too large are not. -/
theorem exCalls :
    (Web.Req.read 7 true).body = some c!"{\"jsonrpc\":\"2.0\",\"method\":\"ReadProject\",\"params\":{\"reload\":true},\"id\":7}" ∧
    (Web.Req.modify 8 [.delete (nm "REQ-a") (HashIm.mk (Vector.replicate 16 1))]).body =
      some c!"{\"jsonrpc\":\"2.0\",\"method\":\"ModifyProject\",\"params\":[{\"op\":\"delete\",\"name\":\"REQ-a\",\"orig_id\":\"AQEBAQEBAQEBAQEBAQEBAQ\"}],\"id\":8}" ∧
    Asks (.read 7 true) 7 ∧ Asks (.modify 8 [.delete (nm "REQ-a") (HashIm.mk (Vector.replicate 16 1))]) 8 := by
  refine ⟨by decide +kernel, by decide +kernel, rfl, rfl⟩

/-- The bound on the number of a call is needed: the server refuses the call with the number 2^63. -/
theorem C63_id_limit : ((Web.Req.read (2 ^ 63) true).body.map fun b => (requestOf b).2 matches .garbage) = some true := by decide +kernel

theorem exFits : FilesFit exGood := by
  have h : (exGood.all fun e => match e.2 with
      | .file (.text s) => s.length < 1000
      | .file (.binary s _) => s.length < 1000
      | _ => true) = true := by decide +kernel
  intro f s hs
  rw [List.all_eq_true] at h
  rcases hs with hs | ⟨id, hs⟩
  · obtain ⟨g, _, hg⟩ := IMap.mem_of_get? hs
    have := h _ hg
    simp only [decide_eq_true_eq] at this
    omega
  · obtain ⟨g, _, hg⟩ := IMap.mem_of_get? hs
    have := h _ hg
    simp only [decide_eq_true_eq] at this
    omega

/-- A project that is read and served: it can be sent, and the server sends it. -/
theorem exServed : ∃ s hist t x, Starts (exEnv nameLibs) exGood c!"/p/src" c!"/p" s ∧ Art.Runs (exEnv nameLibs) s hist t ∧
    Art.Event.finish 0 (.read (some (some false))) (.success x) ∈ hist ∧ x.project.artifacts.map (fun a => a.1.raw) = [c!"REQ-a", c!"SPC-a", c!"SPC-b"] ∧
    ReadsProject nameLibs (fun _ => some exRaw) exId 4 exGood c!"/p" (.ok (x.lints, x.project)) ∧ FilesFit exGood ∧ LinesFit x.project := by
  have h1 := exServe_now.1
  have h2 := exGood_reads
  have h3 := exGood_repo
  have h4 := exFits
  generalize exGood = g at h1 h2 h3 h4 ⊢
  generalize readNow nameLibs exId g exS = o at h1 h2
  obtain ⟨⟨c, p⟩, h5, h6⟩ := Option.map_eq_some_iff.1 h1
  cases o with
  | panic => cases h5
  | err e => cases h5
  | ok v =>
    cases h5
    refine ⟨_, [] ++ [.arrive 0 _] ++ [.lock 0] ++ [.finish 0 (.read (some (some false))) (.success ⟨p, c⟩)], _, ⟨p, c⟩, .start (E := exEnv nameLibs) h3 h2, .snoc (.snoc (.snoc .nil
      (.arrive rfl rfl)) (.lock rfl (r := .read (some (some false))) rfl (by simp) rfl rfl)) (.work (out := (.success ⟨p, c⟩, ⟨p, c⟩)) rfl rfl rfl (.read (.inr rfl))), by simp, h6, h2, h4, read_lines h2 h4⟩

/-- The hypotheses of the theorems above hold for it. -/
example : ∃ s hist t x body, Starts (exEnv nameLibs) exGood c!"/p/src" c!"/p" s ∧ Art.Runs (exEnv nameLibs) s hist t ∧
    Art.Event.finish 0 (.read (some (some false))) (.success x) ∈ hist ∧ x.project.artifacts.length = 3 ∧
    Reply.body exDec WireExport.default [] (.num (showNat 7)) (.success x) = some body ∧
    (∃ S, handleResponse ⟨true, exUndec, fun _ => []⟩ true [] body = .ok (some (.recvProject 7 S)) ∧ S.length = 3) ∧
    x.project.toSer true exDec exUndec WireExport.default = .ok (WireExport.default, x.project) := by
  obtain ⟨s, hist, t, x, h1, h2, h3, h4, h5, h6, h7⟩ := exServed
  have hl : x.project.artifacts.length = 3 := by simpa using congrArg List.length h4
  obtain ⟨m, e1, _, e2, _⟩ := C63_becomes ⟨true, exUndec, fun _ => []⟩ h1 h2 exNumbers WireExport.default [] [] h3 (by rintro _ ⟨⟩; exact h7) (q := .read 7 false) (jid := 7) rfl (by norm_num) rfl
  obtain ⟨S, rfl, e3⟩ := e2 x rfl
  exact ⟨s, hist, t, x, _, h1, h2, h3, hl, rfl, ⟨S, e1, by simpa [hl] using e3.length_eq⟩, C63_toSer true exNumbers _ h5 h6⟩

/-- Its lints do not matter to the page. -/
example : ∃ x : ProjectResult, x.project.artifacts.length = 3 ∧ ProjectSound x.project ∧ RatiosBack exDec exUndec x.project := by
  obtain ⟨s, hist, t, x, h1, h2, h3, h4, h5, h6, h7⟩ := exServed
  exact ⟨x, by simpa using congrArg List.length h4, (read_sendable h5).sound h7, (read_sendable h5).back exNumbers⟩

/-- Lints with all that they can have. -/
def exLints : Categorized := ⟨[⟨.error, some c!"/p/a.md", some 3, .parseArtifactFiles, c!"\"x\"\n"⟩], [⟨.warn, none, none, .implCode, c!"y"⟩]⟩

theorem exLints_sound : LintsSound exLints ∧ exLints.display = c!"  ----- ERRORS -----:\n[\n  {\n    \"level\": \"Error\",\n    \"path\": \"/p/a.md\",\n    \"line\": 3,\n    \"category\": \"ParseArtifactFiles\",\n    \"msg\": \"\\\"x\\\"\\n\"\n  }\n]\n\n  ----- WARNINGS -----:\n[\n  {\n    \"level\": \"Warn\",\n    \"category\": \"ImplCode\",\n    \"msg\": \"y\"\n  }\n]\n" := by
  refine ⟨?_, by decide +kernel⟩
  intro l hl n hn
  simp only [exLints, List.cons_append, List.nil_append, List.mem_cons, List.not_mem_nil, or_false] at hl
  rcases hl with rfl | rfl
  · cases hn; norm_num [LineNum]
  · cases hn

/-- Settings to which `C63_toc` applies. -/
example : SettingsSound exS ∧ ∃ l, l.length = 9 ∧ exS.toJson WireExport.default = .obj (l ++ [(c!"export", WireExport.default.toJson)]) :=
  ⟨⟨by unfold ISet.Nodup; decide, by unfold ISet.Nodup; decide, by unfold ISet.Nodup; decide, by unfold ISet.Nodup; decide⟩, [_, _, _, _, _, _, _, _, _], rfl, rfl⟩

end Art
