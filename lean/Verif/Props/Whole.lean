import Verif.Lemmas.Whole

/-!
C53: the pages and the server together. A save that a page reports has happened, exactly as the form said, and overwrote nothing that its user had not seen.

The theorems are about histories of the whole (`Runs`): any number of pages, any other programs that talk to the server or change files, in any order. What C36 says of the
server and C37 of a page holds in them, by `C53_server` and `C53_page`.
-/

namespace Art
namespace Whole
open Spec

section
variable {E : Env} {nd : Char → Bool} {lim : Nat} {S S' : Sys} {tr : List Ev} {fs : FS} {dir repo : FilePath} {s0 : Server} {p0 : Web.Proj} {v : Nat → View}

/-- The histories of the whole contain histories of the server, so what C36 says holds. -/
theorem C53_server (h : Runs E nd lim (Sys.init s0 p0 v) tr S) : Art.Runs E s0 (tr.flatMap Ev.ofServer) S.server := runs_server h

/-- The histories of the whole contain histories of each page, so what C37 says holds. -/
theorem C53_page (k : Nat) (h : Runs E nd lim (Sys.init s0 p0 v) tr S) :
    Web.Runs nd lim (Web.World.init p0 (v k)) (tr.flatMap (Ev.ofPage k)) (S.pages k) := runs_page k h

theorem starts_init (h : Starts E fs dir repo s0) : ∃ val : ProjectResult, s0 = Server.init fs val ∧ val.project.settings.base = repo := by
  obtain ⟨_, hr⟩ := h
  exact ⟨_, rfl, base_of_read hr⟩

/-! ## what is sent between page and server -/

theorem sent_sets {w0 w w1 : Web.World} {l after : List Web.Event} {jid : Nat} {ids : List Nat} {ops : List ArtifactOp}
    (h : Web.SentIn nd lim w0 l w jid ids ops w1 after) : LinkSets ops := by
  obtain ⟨before, w2, _, _, hs, _, _⟩ := h
  rcases Web.step_update hs with ⟨m, r, he, hu, _, _⟩ | ⟨he, _⟩ | ⟨_, _, he, _⟩
  · simp only [Web.Event.handled.injEq] at he
    obtain ⟨rfl, he⟩ := he
    obtain ⟨u', sent⟩ := r
    simp only at he
    subst he
    rcases Web.startSendUpdate_ok hu with ⟨_, _, he⟩ | ⟨_, ops', ho, he, _⟩
    · cases he
    · simp only [List.cons.injEq, Web.Req.modify.injEq, and_true] at he
      obtain ⟨_, rfl⟩ := he
      intro op hop a hb
      obtain ⟨id, _, hid⟩ := forall₂_mem_right (Res.mapM'_eq_ok.1 ho) hop
      unfold Web.UI.opOf at hid
      split at hid
      · cases hid
      · rename_i e he
        simp only [Res.bind_eq_ok] at hid
        obtain ⟨im, him, hid⟩ := hid
        have hn : ISet.Nodup im.partof := by
          unfold Web.Edit.toIm at him
          simp only [Res.bind_eq_ok, Res.pure_def, Res.ok.injEq] at him
          obtain ⟨ps, _, n, _, rfl⟩ := him
          exact ISet.nodup_collect ps
        split at hid
        · simp only [Res.pure_def, Res.ok.injEq] at hid
          subst hid
          rcases hb with hb | ⟨_, hb⟩ <;> cases hb
          exact hn
        · simp only [Res.pure_def, Res.ok.injEq] at hid
          subst hid
          rcases hb with hb | ⟨_, hb⟩ <;> cases hb
          exact hn
  · cases he
  · cases he

/-- The server reads exactly the operations that the page sent: no save is refused because it cannot be read. -/
theorem C53_ops_arrive (strict : Bool) {w0 w w1 : Web.World} {l after : List Web.Event} {jid : Nat} {ids : List Nat} {ops : List ArtifactOp}
    (h : Web.SentIn nd lim w0 l w jid ids ops w1 after) : Res.mapM' (WireOp.read strict) (ops.map wireOp) = .ok ops := by
  have hs := sent_sets h
  rw [mapM'_of_map, mapM'_map (f' := fun o => o) (fun op ho => wireOp_read strict (hs op ho))]
  simp

theorem finish_neat (hst : Starts E fs dir repo s0) (h : Runs E nd lim (Sys.init s0 p0 v) tr S) {i : Nat} {r : Request} {w : ProjectResult}
    (hm : Ev.server (.finish i r (.success w)) ∈ tr) : Neat E.hash w.project :=
  (served_neat hst (runs_server h)).2 i r w (List.mem_flatMap.2 ⟨_, hm, by simp [Ev.ofServer]⟩)

/-- A page can read every project that the server sends, in whatever order its artifacts come, and shows it exactly. The id that it has of each artifact is the hash of that
artifact. -/
theorem C53_readable (hst : Starts E fs dir repo s0) (h : Runs E nd lim (Sys.init s0 p0 v) tr S) {i : Nat} {r : Request} {w : ProjectResult}
    (hm : Ev.server (.finish i r (.success w)) ∈ tr) {l : List (Str × WireArt)} (hl : l.Perm (wireProject w.project)) :
    ∃ P, readShared E.strict l = .ok P ∧ Shows P w.project ∧ IMap.Nodup P ∧
      ∀ n a, P.get? n = some a → ∃ x ∈ w.project.artifacts, key x.1 = key n ∧ a = look x.2 ∧ a.id = E.hash x.2.toIm := by
  have hn := finish_neat hst h hm
  obtain ⟨P, h1, h2, h3⟩ := readShared_neat E.strict hn hl
  refine ⟨P, h1, h2, h3, fun n a ha => ?_⟩
  obtain ⟨m, hk, hmem⟩ := IMap.mem_of_get? ha
  obtain ⟨x, hx, e⟩ := List.mem_map.1 (h2.mem_iff.1 hmem)
  cases e
  exact ⟨x, hx, hk, rfl, hn.ids x hx⟩

/-! ## what a page shows -/

theorem response_answer {k jid : Nat} {q : Web.Req} {P : Web.Proj} (h : Web.Event.response q (.recvProject jid P) ∈ tr.flatMap (Ev.ofPage k))
    (hr : Runs E nd lim (Sys.init s0 p0 v) tr S) : ∃ i a, Ev.answer k q i a (.recvProject jid P) ∈ tr := by
  obtain ⟨ev, hev, hin⟩ := List.mem_flatMap.1 h
  cases ev with
  | page j e =>
    exfalso
    obtain ⟨a0, b0, rfl⟩ := List.append_of_mem hev
    obtain ⟨Sa, _, r2⟩ := hr.split
    obtain ⟨Sb, st, _⟩ := r2.first
    simp only [Ev.ofPage] at hin
    split at hin
    · cases st with
      | page _ hne => exact hne _ _ (List.mem_singleton.1 hin).symm
    · simp at hin
  | initial j =>
    simp only [Ev.ofPage] at hin
    split at hin <;> simp at hin
  | request => simp [Ev.ofPage] at hin
  | answer j q' i a m =>
    simp only [Ev.ofPage] at hin
    split at hin
    · rename_i e
      simp only [List.mem_singleton, Web.Event.response.injEq] at hin
      obtain ⟨rfl, rfl⟩ := hin
      subst e
      exact ⟨i, a, hev⟩
    · simp at hin
  | fail j q' logs =>
    simp only [Ev.ofPage] at hin
    split at hin <;> simp at hin
  | server => simp [Ev.ofPage] at hin

theorem no_initial {k : Nat} {q : Web.Req} {P : Web.Proj} {t : Web.WebType} (h : Web.Event.response q (.recvInitial (some P) t) ∈ tr.flatMap (Ev.ofPage k))
    (hr : Runs E nd lim (Sys.init s0 p0 v) tr S) : False := by
  obtain ⟨ev, hev, hin⟩ := List.mem_flatMap.1 h
  obtain ⟨a0, b0, rfl⟩ := List.append_of_mem hev
  obtain ⟨Sa, _, r2⟩ := hr.split
  obtain ⟨Sb, st, _⟩ := r2.first
  cases st with
  | page _ hne =>
    simp only [Ev.ofPage] at hin
    split at hin
    · exact hne _ _ (List.mem_singleton.1 hin).symm
    · simp at hin
  | initial =>
    simp only [Ev.ofPage] at hin
    split at hin <;> simp at hin
  | request => simp [Ev.ofPage] at hin
  | answer _ _ hb _ =>
    simp only [Ev.ofPage] at hin
    split at hin
    · simp only [List.mem_singleton, Web.Event.response.injEq] at hin
      obtain ⟨_, rfl⟩ := hin
      cases hb
    · simp at hin
  | fail =>
    simp only [Ev.ofPage] at hin
    split at hin <;> simp at hin
  | server => simp [Ev.ofPage] at hin

/-- The server made this answer of a page from this project. -/
theorem answer_shows (hst : Starts E fs dir repo s0) (h : Runs E nd lim (Sys.init s0 p0 v) tr S) {k i jid : Nat} {q : Web.Req} {a : Reply} {P : Web.Proj}
    (ha : Ev.answer k q i a (.recvProject jid P) ∈ tr) : ∃ r w S1 S2, a = .success w ∧ wireReq q = some r ∧ Shows P w.project ∧ Neat E.hash w.project ∧
      Answered E nd lim (Sys.init s0 p0 v) tr S k q r (.success w) (.recvProject jid P) S1 S2 := by
  obtain ⟨val, rfl, _⟩ := starts_init hst
  obtain ⟨hb, r, S1, S2, hr, han⟩ := answered h ha
  obtain ⟨j, x, y, e, _⟩ := id han
  generalize hm : Web.Msg.recvProject jid P = m at hb
  cases hb with
  | @read jid' re w l P' hl hrd =>
    cases hm
    have hn := finish_neat hst h (i := j) (r := r) (w := w) (by rw [e]; simp)
    obtain ⟨P', h1, h2, _⟩ := readShared_neat E.strict hn hl
    rw [hrd] at h1
    cases h1
    exact ⟨r, w, S1, S2, rfl, hr, h2, hn, han⟩
  | @modify jid' ops w l P' hl hrd =>
    cases hm
    have hn := finish_neat hst h (i := j) (r := r) (w := w) (by rw [e]; simp)
    obtain ⟨P', h1, h2, _⟩ := readShared_neat E.strict hn hl
    rw [hrd] at h1
    cases h1
    exact ⟨r, w, S1, S2, rfl, hr, h2, hn, han⟩
  | error => cases hm

/-- At every moment a page shows the example project or a project that the server had: it answered a request of this page with it, after the request came in. -/
theorem C53_shown (hst : Starts E fs dir repo s0) (h : Runs E nd lim (Sys.init s0 p0 v) tr S) (k : Nat) :
    (S.pages k).ui.shared = p0 ∨ ∃ q r w m S1 S2, wireReq q = some r ∧ Shows (S.pages k).ui.shared w.project ∧ Loaded E repo w ∧ S2.server.value = w ∧
      Answered E nd lim (Sys.init s0 p0 v) tr S k q r (.success w) m S1 S2 := by
  have hp := runs_page k h
  rcases Web.shared_runs hp with h1 | ⟨jid, h1⟩ | ⟨t, sent, h1⟩
  · exact Or.inl h1
  · right
    obtain ⟨q, hq⟩ := (Web.handled_arrived hp).2 _ _ h1 trivial
    obtain ⟨i, a, ha⟩ := response_answer hq h
    obtain ⟨r, w, S1, S2, rfl, hr, hs, hn, han⟩ := answer_shows hst h ha
    obtain ⟨j, x, y, e, hreq, hans, q1, st, q3⟩ := id han
    have hfin : Art.Step E S1.server (.finish j r (.success w)) S2.server := by cases st; assumption
    have hv := (C36_failed_unchanged hfin).2 w rfl
    have r2 : Runs E nd lim (Sys.init s0 p0 v) (x ++ [.server (.finish j r (.success w))]) S2 := .snoc q1 st
    have hl := (C36_loaded hst (runs_server r2)).1
    exact ⟨q, r, w, _, S1, S2, hr, hs, hv ▸ hl, hv, han⟩
  · exfalso
    obtain ⟨q, hq⟩ := (Web.handled_arrived hp).2 _ _ h1 trivial
    exact no_initial hq h

/-- When the answer to a request to reload comes, the page gets exactly what reading the disk gave at one moment between request and answer. The answer to a request to read
is what the server had at one moment in between. -/
theorem C53_reloaded (hst : Starts E fs dir repo s0) (h : Runs E nd lim (Sys.init s0 p0 v) tr S) {k i jid jid' : Nat} {reload : Bool} {a : Reply} {P : Web.Proj}
    (ha : Ev.answer k (.read jid reload) i a (.recvProject jid' P) ∈ tr) :
    ∃ rq w S1 S2, a = .success w ∧ Shows P w.project ∧ Answered E nd lim (Sys.init s0 p0 v) tr S k (.read jid reload) rq (.success w) (.recvProject jid' P) S1 S2 ∧
      (reload = true → ReadsProject E.L E.readToml E.hash E.ncpu S1.server.disk repo (.ok (w.lints, w.project))) ∧
      (reload = false → w = S1.server.value) := by
  obtain ⟨rq, w, S1, S2, rfl, hr, hs, -, han⟩ := answer_shows hst h ha
  refine ⟨rq, w, S1, S2, rfl, hs, han, ?_⟩
  obtain ⟨j, x, y, -, -, -, q1, st, -⟩ := han
  have hfin : Art.Step E S1.server (.finish j rq (.success w)) S2.server := by cases st; assumption
  have hb : S1.server.value.project.settings.base = repo := by
    obtain ⟨val, rfl, hv⟩ := starts_init hst
    rw [runs_base (runs_server q1)]
    exact hv
  simp only [wireReq, Option.some.injEq] at hr
  subst hr
  generalize he : Reply.success w = a at hfin
  generalize S2.server = t at hfin
  generalize S1.server = s at hfin hb ⊢
  cases hfin with
  | poisoned => cases he
  | @work _ _ o d _ _ _ hm =>
    cases hm with
    | read hq =>
      cases he
      refine ⟨fun hre => ?_, fun _ => rfl⟩
      rcases hq with hq | hq
      · cases hq
      · rw [hre] at hq; cases hq
    | @reload out hrd =>
      refine ⟨fun _ => ?_, nofun⟩
      rw [hb] at hrd
      rcases out with ⟨c, p⟩ | _ | _
      · cases he
        exact hrd
      · cases he
      · cases he

/-! ## a save -/

theorem presents_of_update {a : ArtifactIm} {o id : HashIm} : Presents (.update a o) id ↔ id = o := by
  constructor
  · rintro (⟨b, h⟩ | ⟨n, h⟩) <;> cases h
    rfl
  · rintro rfl; exact Or.inl ⟨a, rfl⟩

theorem brings_of_update {a b : ArtifactIm} {o : HashIm} : Brings (.update a o) b ↔ b = a := by
  constructor
  · rintro (h | ⟨n, h⟩) <;> cases h
    rfl
  · rintro rfl; exact Or.inr ⟨o, rfl⟩

/-- What one accepted operation does. -/
theorem plans_one {L : Libs} {hash : ArtifactIm → HashIm} {dbg : ArtifactIm → Str} {c c' : Categorized} {q p' : Project} {op : ArtifactOp}
    (hs : ProjectSets q) (hl : LinkSets [op]) (h : Plans L hash dbg c q [op] (.ok (c', p'))) :
    Replaces hash q p' op.clean ∧ (NoCollision hash q [op.clean] → ReplacesExactly hash q p' op.clean) := by
  obtain ⟨_, _, A, B, _⟩ := C25_ids hs hl h
  have hno : ∀ id, Presents op id → (∃ a ∈ editable q, hash a = id) := by
    intro id hp
    by_contra hx
    have hx' : ∀ a ∈ editable q, hash a ≠ id := fun a ha e => hx ⟨a, ha, e⟩
    obtain ⟨e, he, _⟩ := C24_stale h (op := op) (by simp) hp hx' (by
      rintro ⟨hi, op', ho, hni, _⟩
      simp only [List.map_cons, List.map_nil, List.mem_singleton] at ho
      subst ho
      exact hni hi)
    cases he
  cases op with
  | create a =>
    simp only [ArtifactOp.clean, List.map_cons, List.map_nil] at A B ⊢
    have hni : ¬ Idle hash (.create a.clean) := fun ⟨_, h⟩ => by cases h
    have hb : ∀ id, BroughtIn hash [.create a.clean] id ↔ id = hash a.clean := by
      intro id
      constructor
      · rintro ⟨op, ho, _, b, hb, rfl⟩
        simp only [List.mem_singleton] at ho
        subst ho
        rcases hb with hb | ⟨_, hb⟩ <;> cases hb
        rfl
      · rintro rfl
        exact ⟨_, List.mem_singleton.2 rfl, hni, _, Or.inl rfl, rfl⟩
    have ht : ∀ id, ¬ TakenOut hash [.create a.clean] id := by
      rintro id ⟨op, ho, _, hp⟩
      simp only [List.mem_singleton] at ho
      subst ho
      rcases hp with ⟨_, hp⟩ | ⟨_, hp⟩ <;> cases hp
    have hnew : ¬ HasId hash q (hash a.clean) := by
      obtain ⟨hc, ho, hp, _⟩ := plans_ok h
      have hu : Unchained hash ([ArtifactOp.create a].map ArtifactOp.clean) := by
        intro b hb
        simp [ArtifactOp.clean] at hb
      have hm := C24_mismatch_iff h hc ho hp hu
      have hmat : Matches hash q ([ArtifactOp.create a].map ArtifactOp.clean) := by
        by_contra hx
        obtain ⟨e, he, _⟩ := hm.2 hx
        cases he
      rintro ⟨b, hb, e⟩
      exact hmat.2 a.clean (by simp [ArtifactOp.clean]) b hb e
    refine ⟨⟨hnew, fun id => ?_⟩, fun hcol => ⟨fun hm => hnew ⟨_, hm, rfl⟩, fun x => ?_⟩⟩
    · unfold HasId
      rw [A, hb]
      simp only [ht, not_false_eq_true, and_true]
      exact or_comm
    · have := C25_batch hs hl hcol h x
      simp only [ArtifactOp.clean, List.map_cons, List.map_nil, ht, not_false_eq_true, and_true] at this
      rw [this]
      refine or_congr_right ?_
      constructor
      · rintro ⟨op, ho, _, hbr⟩
        simp only [List.mem_singleton] at ho
        subst ho
        rcases hbr with hbr | ⟨_, hbr⟩ <;> cases hbr
        rfl
      · rintro rfl
        exact ⟨_, List.mem_singleton.2 rfl, hni, Or.inl rfl⟩
  | update a o =>
    obtain ⟨b, hb, hbo⟩ := hno o (presents_of_update.2 rfl)
    simp only [ArtifactOp.clean, List.map_cons, List.map_nil] at A B ⊢
    have idle_iff : Idle hash (.update a.clean o) ↔ o = hash a.clean := by
      constructor
      · rintro ⟨_, h⟩; cases h; rfl
      · rintro rfl; exact ⟨_, rfl⟩
    have hbr : ∀ id, BroughtIn hash [.update a.clean o] id ↔ o ≠ hash a.clean ∧ id = hash a.clean := by
      intro id
      constructor
      · rintro ⟨op, ho, hni, c, hc, rfl⟩
        simp only [List.mem_singleton] at ho
        subst ho
        rw [idle_iff] at hni
        rw [brings_of_update.1 hc]
        exact ⟨hni, rfl⟩
      · rintro ⟨hni, rfl⟩
        exact ⟨_, List.mem_singleton.2 rfl, fun h => hni (idle_iff.1 h), _, brings_of_update.2 rfl, rfl⟩
    have ht : ∀ id, TakenOut hash [.update a.clean o] id ↔ o ≠ hash a.clean ∧ id = o := by
      intro id
      constructor
      · rintro ⟨op, ho, hni, hp⟩
        simp only [List.mem_singleton] at ho
        subst ho
        rw [idle_iff] at hni
        exact ⟨hni, presents_of_update.1 hp⟩
      · rintro ⟨hni, rfl⟩
        exact ⟨_, List.mem_singleton.2 rfl, fun h => hni (idle_iff.1 h), presents_of_update.2 rfl⟩
    have ids : ∀ id, HasId hash p' id ↔ (HasId hash q id ∧ id ≠ o) ∨ id = hash a.clean := by
      intro id
      unfold HasId
      rw [A, hbr, ht]
      by_cases ho : o = hash a.clean
      · subst ho
        simp only [ne_eq, not_true_eq_false, false_and, false_or, not_false_eq_true, and_true]
        by_cases hid : id = hash a.clean
        · subst hid
          simp only [or_true, iff_true]
          exact ⟨b, hb, hbo⟩
        · simp [hid]
      · simp only [ne_eq, ho, not_false_eq_true, true_and]
        exact or_comm
    refine ⟨⟨⟨b, hb, hbo⟩, ids⟩, fun hcol => ⟨b, hb, hbo, fun x => ?_⟩⟩
    have hbat := C25_batch hs hl hcol h x
    simp only [ArtifactOp.clean, List.map_cons, List.map_nil, ht] at hbat
    rw [hbat]
    have last : (∃ op ∈ [ArtifactOp.update a.clean o], ¬ Idle hash op ∧ Brings op x) ↔ o ≠ hash a.clean ∧ x = a.clean := by
      constructor
      · rintro ⟨op, ho, hni, hx⟩
        simp only [List.mem_singleton] at ho
        subst ho
        exact ⟨fun h => hni (idle_iff.2 h), brings_of_update.1 hx⟩
      · rintro ⟨hni, rfl⟩
        exact ⟨_, List.mem_singleton.2 rfl, fun h => hni (idle_iff.1 h), brings_of_update.2 rfl⟩
    rw [last]
    have inj : ∀ {y z}, y ∈ editable q → z ∈ editable q → hash y = hash z → y = z := fun hy hz e => hcol _ _ (Or.inl hy) (Or.inl hz) e
    by_cases ho : o = hash a.clean
    · have hba : b = a.clean := hcol b a.clean (Or.inl hb) (Or.inr ⟨_, List.mem_singleton.2 rfl, brings_of_update.2 rfl⟩) (by rw [hbo, ho])
      simp only [ne_eq, ho, not_true_eq_false, false_and, not_false_eq_true, and_true, or_false]
      rw [← hba]
      by_cases hx : x = b
      · subst hx; simp [hb]
      · simp [hx]
    · simp only [ne_eq, ho, not_false_eq_true, true_and]
      refine or_congr_left (and_congr_right fun hx => not_congr ?_)
      constructor
      · intro e; exact inj hx hb (by rw [e, hbo])
      · rintro rfl; exact hbo
  | delete n o =>
    obtain ⟨b, hb, hbo⟩ := hno o (Or.inr ⟨n, rfl⟩)
    simp only [ArtifactOp.clean, List.map_cons, List.map_nil] at A B ⊢
    have hni : ¬ Idle hash (.delete n o) := fun ⟨_, h⟩ => by cases h
    have hbr : ∀ x, ¬ Brings (.delete n o) x := by
      rintro x (h | ⟨_, h⟩) <;> cases h
    have hbi : ∀ id, ¬ BroughtIn hash [.delete n o] id := by
      rintro id ⟨op, ho, _, c, hc, _⟩
      simp only [List.mem_singleton] at ho
      subst ho
      exact hbr c hc
    have ht : ∀ id, TakenOut hash [.delete n o] id ↔ id = o := by
      intro id
      constructor
      · rintro ⟨op, ho, _, hp⟩
        simp only [List.mem_singleton] at ho
        subst ho
        rcases hp with ⟨_, hp⟩ | ⟨_, hp⟩ <;> cases hp
        rfl
      · rintro rfl
        exact ⟨_, List.mem_singleton.2 rfl, hni, Or.inr ⟨n, rfl⟩⟩
    refine ⟨⟨⟨b, hb, hbo⟩, fun id => ?_⟩, fun hcol => ⟨b, hb, hbo, fun x => ?_⟩⟩
    · unfold HasId
      rw [A, ht]
      simp only [hbi, false_or]
    · have hbat := C25_batch hs hl hcol h x
      simp only [ArtifactOp.clean, List.map_cons, List.map_nil, ht] at hbat
      rw [hbat]
      have last : ¬ ∃ op ∈ [ArtifactOp.delete n o], ¬ Idle hash op ∧ Brings op x := by
        rintro ⟨op, ho, _, hx⟩
        simp only [List.mem_singleton] at ho
        subst ho
        exact hbr x hx
      simp only [last, or_false]
      refine and_congr_right fun hx => not_congr ?_
      constructor
      · intro e; exact hcol _ _ (Or.inl hx) (Or.inl hb) (by rw [e, hbo])
      · rintro rfl; exact hbo

theorem mem_editable_sort {p : Project} (h : ∀ x ∈ p.artifacts, ISet.Nodup x.2.partof) (a : ArtifactIm) : a ∈ editable p.sort ↔ a ∈ editable p :=
  (editable_sort h).mem_iff

/-- A successful modification by one operation does what the operation says. -/
theorem performs_of {d d' : FS} {op : ArtifactOp} {r : ProjectResult} (hl : LinkSets [op])
    (h : Modifies E.L E.readToml E.hash E.dbg E.ncpu d repo [op] (some (.ok (r.lints, r.project))) d') : ∃ q, Performs E repo d q op r d' := by
  obtain ⟨c, q, c', p', h1, h2, e⟩ := modifies_ok h
  simp only at e
  have hs := C25_read_sets h1
  have hn := plans_neat hs hl h2
  obtain ⟨a1, a2⟩ := plans_one hs hl h2
  have hmem : ∀ a, a ∈ editable r.project ↔ a ∈ editable p' := by
    intro a
    rw [e]
    exact mem_editable_sort hn.links a
  have hid : ∀ id, HasId E.hash r.project id ↔ HasId E.hash p' id := by
    intro id
    unfold HasId
    simp only [hmem]
  refine ⟨q, ⟨c, h1⟩, h, ?_, fun hcol => ?_⟩
  · cases hop : op.clean <;> rw [hop] at a1 <;> simpa only [Replaces, hid] using a1
  · have a2 := a2 hcol
    cases hop : op.clean <;> rw [hop] at a2 <;> simpa only [ReplacesExactly, hmem] using a2

/-- A modification that the server reports as successful. -/
theorem finish_modify {s t : Server} {i : Nat} {ops : List WireOp} {ops' : List ArtifactOp} {w : ProjectResult}
    (h : Art.Step E s (.finish i (.modify (some (some ops))) (.success w)) t) (ho : Res.mapM' (WireOp.read E.strict) ops = .ok ops') :
    Modifies E.L E.readToml E.hash E.dbg E.ncpu s.disk s.value.project.settings.base ops' (some (.ok (w.lints, w.project))) t.disk := by
  generalize ha : Reply.success w = a at h
  cases h with
  | poisoned => cases ha
  | @work _ _ o d _ _ _ hm =>
    cases hm with
    | modifyBad h => cases ha
    | modifyUnread => cases ha
    | modifyPanic => cases ha
    | @modify _ opsr o d hread hm =>
      rw [ho] at hread
      cases hread
      cases o with
      | err e => cases ha
      | panic => cases ha
      | ok x => cases ha; exact hm

/-- C53, the main theorem: when a page closes a form because its save was answered, then the server has performed exactly the operation that the form said when Save was
pressed, between the moments when the request came in and when the answer left, in the directory of the project; the page now shows the project as it was then. -/
theorem C53_saved (hst : Starts E fs dir repo s0) (h : Runs E nd lim (Sys.init s0 p0 v) tr S) {k id jid : Nat} {e : Web.Edit} {P : Web.Proj} {w' : Web.World}
    (he : (S.pages k).ui.editing.get? id = some e) (hs : Web.Step nd lim (S.pages k) (.handled (.recvProject jid P) []) w') (hgone : w'.ui.editing.get? id = none) :
    ∃ op e1 w1 after r S1 S2 q,
      Web.SentIn nd lim (Web.World.init p0 (v k)) (tr.flatMap (Ev.ofPage k)) (S.pages k) jid [id] [op] w1 after ∧
      w1.ui.editing.get? id = some e1 ∧ Web.OpFor e1 op ∧
      Answered E nd lim (Sys.init s0 p0 v) tr S k (.modify jid [op]) (.modify (some (some [wireOp op]))) (.success r) (.recvProject jid P) S1 S2 ∧
      Performs E repo S1.server.disk q op r S2.server.disk ∧ Shows P r.project ∧ w'.ui.shared = P := by
  have hp := runs_page k h
  rcases Web.C37_edit_kept hp hs he with h1 | ⟨f, e', hev, _⟩ | ⟨hev, _⟩ | ⟨_, jid', P', ids, ops, w1, a, b, hev, hid, hsent⟩
  · rw [hgone] at h1; cases h1
  · cases hev
  · cases hev
  · cases hev
    have hsent' := hsent
    obtain ⟨before, w2, htr, hb1, hb2, hb3, hf⟩ := hsent'
    obtain ⟨id', rfl⟩ := Web.sends_one hp (ids := ids) (sent := [.modify jid ops]) (by rw [show List.flatMap (Ev.ofPage k) tr = _ from htr]; simp)
    have hid : id = id' := by simpa using hid
    subst hid
    obtain ⟨op, rfl⟩ : ∃ op, ops = [op] := by
      cases hf with
      | cons _ h => cases h; exact ⟨_, rfl⟩
    obtain ⟨e1, he1, hop⟩ : ∃ e, w1.ui.editing.get? id = some e ∧ Web.OpFor e op := by
      cases hf with
      | cons h _ => exact h
    obtain ⟨i, ans, ha⟩ := response_answer (k := k) (q := .modify jid [op]) (jid := jid) (P := P)
      (by rw [show List.flatMap (Ev.ofPage k) tr = _ from htr]; simp) h
    obtain ⟨r, w, S1, S2, rfl, hr, hsh, hn, han⟩ := answer_shows hst h ha
    simp only [wireReq, List.map_cons, List.map_nil, Option.some.injEq] at hr
    subst hr
    have han' := han
    obtain ⟨j, x, y, e0, hreq, hans, q1, st, q3⟩ := han'
    have hfin : Art.Step E S1.server (.finish j (.modify (some (some [wireOp op]))) (.success w)) S2.server := by cases st; assumption
    have hm := finish_modify hfin (C53_ops_arrive E.strict hsent)
    obtain ⟨val, rfl, hbase⟩ := starts_init hst
    rw [runs_base (runs_server q1)] at hm
    rw [show (Sys.init (Server.init fs val) p0 v).server.value.project.settings.base = repo from hbase] at hm
    obtain ⟨q, hperf⟩ := performs_of (sent_sets hsent) hm
    exact ⟨op, e1, w1, _, w, S1, S2, q, hsent, he1, hop, han, hperf, hsh, (Web.C37_success hp hs).1⟩

/-! ## nothing is overwritten that was not seen -/

/-- Where the version comes from that a save replaces: when the user pressed Edit the page showed an artifact, of the example project or of a project that the server had
answered with, and its id was the id that is sent. -/
theorem C53_original (hst : Starts E fs dir repo s0) (h : Runs E nd lim (Sys.init s0 p0 v) tr S) {k id jid : Nat} {ids : List Nat} {ops : List ArtifactOp} {w1 : Web.World}
    {after : List Web.Event} {e1 : Web.Edit} {old : HashIm}
    (hsent : Web.SentIn nd lim (Web.World.init p0 (v k)) (tr.flatMap (Ev.ofPage k)) (S.pages k) jid ids ops w1 after)
    (he : w1.ui.editing.get? id = some e1) (ho : e1.originalId = some old) :
    ∃ before after' w0 n a, tr.flatMap (Ev.ofPage k) = before ++ .handled (.startCurrent id) [] :: after' ∧
      Web.Runs nd lim (Web.World.init p0 (v k)) before w0 ∧ w0.ui.view = .artifact n ∧ w0.ui.shared.get? n = some a ∧ a.id = old ∧
      (w0.ui.shared = p0 ∨ ∃ q i w m x, Ev.answer k q i (.success w) m ∈ tr ∧ Shows w0.ui.shared w.project ∧ x ∈ w.project.artifacts ∧ a = look x.2 ∧
        E.hash x.2.toIm = old) := by
  have hp := runs_page k h
  obtain ⟨before, w2, htr, hb1, hb2, hb3, hf⟩ := hsent
  obtain ⟨b1, b2, w0, n, a, e, hr, hv, hg, hid⟩ := Web.origin_runs hb1 he old ho
  refine ⟨b1, b2 ++ .handled (.sendUpdate ids) [.modify jid ops] :: after, w0, n, a, by rw [htr, e]; simp, hr, hv, hg, hid, ?_⟩
  have sub : ∀ {ev}, ev ∈ b1 → ev ∈ tr.flatMap (Ev.ofPage k) := by
    intro ev hev
    rw [htr, e]
    simp [hev]
  rcases Web.shared_runs hr with h1 | ⟨j, h1⟩ | ⟨t, sent, h1⟩
  · exact Or.inl h1
  · right
    obtain ⟨q, hq⟩ := (Web.handled_arrived hr).2 _ _ h1 trivial
    obtain ⟨i, ans, ha⟩ := response_answer (sub hq) h
    obtain ⟨r, w, S1, S2, rfl, _, hs, hn, han⟩ := answer_shows hst h ha
    obtain ⟨m, hk, hmem⟩ := IMap.mem_of_get? hg
    obtain ⟨x, hx, ex⟩ := List.mem_map.1 (hs.mem_iff.1 hmem)
    cases ex
    exact ⟨q, i, w, _, x, ha, hs, hx, rfl, by rw [← hn.ids x hx]; exact hid⟩
  · exfalso
    obtain ⟨q, hq⟩ := (Web.handled_arrived hr).2 _ _ h1 trivial
    exact no_initial (sub hq) h

/-- C53: when an edit of an artifact was saved, the version that was replaced is the one that the page showed when the user pressed Edit, nothing else of the project on the disk
was changed, and the new version is what the form said. What others wrote in between is never overwritten unseen. (Ids are hashes, so this is up to collisions; the
example project, which a page shows before it has heard from the server, is left aside.) -/
theorem C53_no_lost_update (hst : Starts E fs dir repo s0) (h : Runs E nd lim (Sys.init s0 p0 v) tr S) {k id jid : Nat} {e : Web.Edit} {P : Web.Proj} {w' : Web.World}
    (he : (S.pages k).ui.editing.get? id = some e) (hs : Web.Step nd lim (S.pages k) (.handled (.recvProject jid P) []) w') (hgone : w'.ui.editing.get? id = none)
    {old : HashIm} (ho : e.originalId = some old) :
    ∃ before after w0 n shown, tr.flatMap (Ev.ofPage k) = before ++ .handled (.startCurrent id) [] :: after ∧
      Web.Runs nd lim (Web.World.init p0 (v k)) before w0 ∧ w0.ui.view = .artifact n ∧ w0.ui.shared.get? n = some shown ∧ shown.id = old ∧
      ∃ im e1 w1 rest r S1 S2 q,
        Web.SentIn nd lim (Web.World.init p0 (v k)) (tr.flatMap (Ev.ofPage k)) (S.pages k) jid [id] [.update im old] w1 rest ∧
        w1.ui.editing.get? id = some e1 ∧ Web.Says e1 im ∧
        Answered E nd lim (Sys.init s0 p0 v) tr S k (.modify jid [.update im old]) (.modify (some (some [wireOp (.update im old)]))) (.success r)
          (.recvProject jid P) S1 S2 ∧
        Performs E repo S1.server.disk q (.update im old) r S2.server.disk ∧
        (w0.ui.shared = p0 ∨ ∃ x, shown = look x ∧
          ((∀ b c, (b ∈ editable q ∨ b = x.toIm ∨ b = im.clean) → (c ∈ editable q ∨ c = x.toIm ∨ c = im.clean) → E.hash b = E.hash c → b = c) →
            x.toIm ∈ editable q ∧ ∀ y, y ∈ editable r.project ↔ (y ∈ editable q ∧ y ≠ x.toIm) ∨ y = im.clean)) := by
  obtain ⟨op, e1, w1, after, r, S1, S2, q, hsent, he1, hop, han, hperf, hsh, _⟩ := C53_saved hst h he hs hgone
  have ho1 : e1.originalId = some old := by
    have hsent' := hsent
    obtain ⟨before, w2, htr, hb1, hb2, hb3, hf⟩ := hsent'
    have := Web.originalId_runs hb1 he1 (Web.Runs.cons hb2 hb3) he
    rw [← this, ho]
  obtain ⟨before, after', w0, n, a, h1, h2, h3, h4, h5, h6⟩ := C53_original hst h hsent he1 ho1
  obtain ⟨im, rfl⟩ : ∃ im, op = .update im old := by
    cases op with
    | create im => rw [hop.1] at ho1; cases ho1
    | update im o =>
      have := hop.1
      rw [ho1] at this
      cases this
      exact ⟨im, rfl⟩
    | delete => exact hop.elim
  refine ⟨before, after', w0, n, a, h1, h2, h3, h4, h5, im, e1, w1, after, r, S1, S2, q, hsent, he1, hop.2, han, hperf, ?_⟩
  rcases h6 with h6 | ⟨q0, i, w, m, x, _, _, _, hx, hh⟩
  · exact Or.inl h6
  · refine Or.inr ⟨x.2, hx, fun hcol => ?_⟩
    obtain ⟨_, _, _, hrep⟩ := hperf
    obtain ⟨b, hb, hbo, hall⟩ := hrep (by
      intro a b ha hb e
      refine hcol a b ?_ ?_ e
      · rcases ha with ha | ⟨op, ho, ha⟩
        · exact Or.inl ha
        · simp only [List.mem_singleton, ArtifactOp.clean] at ho
          subst ho
          exact Or.inr (Or.inr (brings_of_update.1 ha))
      · rcases hb with ha | ⟨op, ho, ha⟩
        · exact Or.inl ha
        · simp only [List.mem_singleton, ArtifactOp.clean] at ho
          subst ho
          exact Or.inr (Or.inr (brings_of_update.1 ha)))
    have hbx : b = x.2.toIm := hcol b x.2.toIm (Or.inl hb) (Or.inr (Or.inl rfl)) (by rw [hbo, hh])
    subst hbx
    exact ⟨hb, hall⟩

/-- Two saves that started from the same version: the second is refused. Nothing else writes to the disk in between; the conditions on the first are those of `C46_reload`, and it
changes something. -/
theorem C53_second_refused {s t u u' : Server} {hist : List Art.Event} {sett : Settings} {i j : Nat} {a b : ArtifactIm} {old : HashIm} {w : ProjectResult} {reply : Reply}
    (wf : FS.WF s.disk) (hs : SettingsOf E.readToml s.disk s.value.project.settings.base sett) (hsafe : Safe s.disk sett) (ap : Apart sett)
    (ha : ISet.Nodup a.partof) (hb : ISet.Nodup b.partof) (once : ReadOnce sett a.file)
    (h : Art.Step E s (.finish i (.modify (some (some [wireOp (.update a old)]))) (.success w)) t) (hch : E.hash a.clean ≠ old)
    (kept : ∀ x ∈ editable w.project, Survives E.L sett x.file ((editable w.project).filter (fun y => decide (y.file = x.file))))
    (hr : Art.Runs E t hist u) (hq : ∀ e ∈ hist, LeavesDisk e)
    (h2 : Art.Step E u (.finish j (.modify (some (some [wireOp (.update b old)]))) reply) u') : ∀ w2, reply ≠ .success w2 := by
  rintro w2 rfl
  have la : LinkSets [.update a old] := by
    intro op ho x hx
    simp only [List.mem_singleton] at ho
    subst ho
    rw [brings_of_update.1 hx]
    exact ha
  have lb : LinkSets [.update b old] := by
    intro op ho x hx
    simp only [List.mem_singleton] at ho
    subst ho
    rw [brings_of_update.1 hx]
    exact hb
  have rd : ∀ {c : ArtifactIm}, LinkSets [.update c old] → Res.mapM' (WireOp.read E.strict) [wireOp (.update c old)] = .ok [.update c old] := by
    intro c hc
    simp only [Res.mapM', wireOp_read E.strict (hc _ (List.mem_singleton.2 rfl)), Res.bind_ok]
    rfl
  have m1 := finish_modify h (rd la)
  have m2 := finish_modify h2 (rd lb)
  obtain ⟨q1, _, _, rep1, _⟩ := performs_of la m1
  obtain ⟨q2, ⟨c2, hread⟩, _, rep2, _⟩ := performs_of lb m2
  rw [runs_disk hr hq, (runs_base hr).trans (step_base h)] at hread
  rcases C46_reload wf hs hsafe ap la (by
      intro op ho x hx
      simp only [List.mem_singleton] at ho
      subst ho
      rw [brings_of_update.1 hx]
      exact once) m1 kept hread with ⟨_, e⟩ | ⟨_, c3, q3, e, hf⟩
  · cases e
  · cases e
    have ed := editable_foldCase hf
    obtain ⟨x, hx, hxo⟩ := rep2.1
    rw [ed] at hx
    rcases (rep1.2 old).1 ⟨x, hx, hxo⟩ with ⟨_, hne⟩ | he
    · exact hne rfl
    · exact hch he.symm

/-! ## a form that is saved as it was opened -/

theorem name_eq_of_raw {n m : Name} (h : n.raw = m.raw) : n = m := by
  have h1 := Name.fromStr_raw_self n
  rw [h, Name.fromStr_raw_self m] at h1
  cases h1
  rfl

theorem untouched_im {x : Artifact} {im : ArtifactIm} (hx : ISet.Nodup x.partof) (hi : ISet.Nodup im.partof) (h : Web.Says (Web.Edit.fromArtifact (look x)) im) :
    im.clean = { x.toIm with done := if x.impl.doneStr = some [] then none else x.impl.doneStr } := by
  obtain ⟨h1, h2, h3, h4, h5, h6⟩ := h
  simp only [Web.Edit.fromArtifact, look] at h1 h2 h3 h4 h5 h6
  have hname := name_eq_of_raw h1
  have hmem : ∀ n, n ∈ im.partof ↔ n ∈ x.partof := by
    intro n
    constructor
    · intro hn
      obtain ⟨m, hm, e⟩ := List.mem_map.1 (h5 n hn)
      rw [← name_eq_of_raw e]
      exact hm
    · intro hn
      obtain ⟨m, e, n', hn', e1, e2⟩ := h6 n.raw (List.mem_map.2 ⟨n, hn, rfl⟩)
      rw [name_eq_of_raw e] at e1 e2
      obtain ⟨m', hm', e'⟩ := List.mem_map.1 (h5 n' hn')
      rw [← name_eq_of_raw e'] at hn' e1 e2
      have : m' = n := List.inj_on_of_nodup_map hx hm' hn (Prod.ext e1 e2)
      rw [← this]
      exact hn'
  have hp : sortNames (stripAuto im.name im.partof) = sortNames (stripAuto x.name x.partof) := by
    rw [hname]
    refine sortNames_eq_of_perm ?_ (nodup_stripAuto hi)
    refine (List.perm_ext_iff_of_nodup (List.Nodup.of_map _ (nodup_stripAuto hi)) (List.Nodup.of_map _ (nodup_stripAuto hx))).2 ?_
    intro q
    rw [mem_stripAuto hi, mem_stripAuto hx]
    exact and_congr_left' (hmem q)
  have hd : im.done = if x.impl.doneStr = some [] then none else x.impl.doneStr := by
    cases hdone : x.impl.doneStr with
    | none =>
      rw [hdone] at h4
      simpa using h4
    | some d =>
      rw [hdone] at h4
      by_cases he : d = []
      · subst he; simpa using h4
      · simp only [Option.getD_some, he, false_and, ne_eq, not_false_eq_true, true_and, false_or] at h4
        simp [he, h4]
  unfold Artifact.toIm ArtifactIm.clean
  simp only
  rw [hp, hname, h2, h3, hd]

/-- What is sent when a form is saved as it was opened: the artifact as it was shown, which changes nothing, unless its `done` was the empty text: the form cannot tell that from no
`done`, so it is removed. -/
theorem C53_untouched (hst : Starts E fs dir repo s0) (h : Runs E nd lim (Sys.init s0 p0 v) tr S) {i : Nat} {rq : Request} {w : ProjectResult} {x : Name × Artifact}
    (hm : Ev.server (.finish i rq (.success w)) ∈ tr) (hx : x ∈ w.project.artifacts) {op : ArtifactOp} (hl : LinkSets [op])
    (hop : Web.OpFor (Web.Edit.fromArtifact (look x.2)) op) :
    (x.2.impl.doneStr ≠ some [] → op.clean = .update x.2.toIm (E.hash x.2.toIm) ∧
      ∀ d q r d', Performs E repo d q op r d' → ∀ id, HasId E.hash r.project id ↔ HasId E.hash q id) ∧
    (x.2.impl.doneStr = some [] → op.clean = .update { x.2.toIm with done := none } (E.hash x.2.toIm) ∧ x.2.toIm.done = some []) := by
  have hn := finish_neat hst h hm
  obtain ⟨im, o, rfl, ho, hsay⟩ : ∃ im o, op = .update im o ∧ o = x.2.id ∧ Web.Says (Web.Edit.fromArtifact (look x.2)) im := by
    cases op with
    | create im => cases hop.1
    | update im o =>
      have := hop.1
      simp only [Web.Edit.fromArtifact, look, Option.some.injEq] at this
      exact ⟨im, o, rfl, this.symm, hop.2⟩
    | delete => exact hop.elim
  have hi : ISet.Nodup im.partof := hl _ (List.mem_singleton.2 rfl) _ (brings_of_update.2 rfl)
  have hc := untouched_im (hn.links x hx) hi hsay
  rw [hn.ids x hx] at ho
  subst ho
  refine ⟨fun hd => ?_, fun hd => ?_⟩
  · rw [if_neg hd] at hc
    have hc : im.clean = x.2.toIm := hc
    have e : (ArtifactOp.update im (E.hash x.2.toIm)).clean = .update x.2.toIm (E.hash x.2.toIm) := by
      simp only [ArtifactOp.clean, hc]
    refine ⟨e, fun d q r d' hp id => ?_⟩
    obtain ⟨_, _, hrep, _⟩ := hp
    rw [e] at hrep
    rw [hrep.2]
    by_cases hid : id = E.hash x.2.toIm
    · subst hid
      simp [hrep.1]
    · simp [hid]
  · rw [if_pos hd] at hc
    exact ⟨by simp only [ArtifactOp.clean, hc], hd⟩

end

end Whole
end Art
