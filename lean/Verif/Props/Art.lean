import Verif.Lemmas.Art
import Verif.Lemmas.Frontend
import Verif.Props.Cli
import Verif.Props.Export
import Verif.Props.Init
import Verif.Props.Wire

/-!
# C71: the program `art` from its command line to the disk, and the exported web page
-/

namespace Art
namespace Cli
open Spec Whole

variable {S : Setup} {fs fs' : FS} {cwd dest : FilePath} {site : List (List Str × Content)}

/-! ## the exported page -/

/-- Exporting the page works exactly if the directory can take it. -/
theorem C71_html_iff (hs : GoodSite site) (initial : Str) : (exportHtml site fs dest initial).1 = 0 ↔ Ready fs dest site := by
  obtain ⟨h1, h2⟩ := export_ends hs fs dest initial
  by_cases h : Ready fs dest site
  · obtain ⟨f, e, _⟩ := h1 h
    simp [e, h]
  · obtain ⟨f, e⟩ := h2 h
    simp [e, h]

/-- A directory that is not there yet can take every page, if it can be made. -/
theorem C71_fresh (w : FS.WF fs) (hs : GoodSite site) (h : IMap.get? fs dest = none) (hp : IMap.get? fs (parentDir dest) = some .dir) : Ready fs dest site := by
  have key : ∀ l : List Str, (∀ n ∈ l, n ≠ [] ∧ '/' ∉ n) → IMap.get? fs (dest ++ Path l) = none := by
    intro l
    induction l using List.reverseRecOn with
    | nil => intro _; simpa [Path] using h
    | append_singleton l n ih =>
      intro hn
      have hl := ih fun m hm => hn m (by simp [hm])
      cases hx : IMap.get? fs (dest ++ Path (l ++ [n])) with
      | none => rfl
      | some x =>
        have hne : dest ++ Path (l ++ [n]) ≠ [] := by rw [Path_append]; simp [Path]
        obtain ⟨q, m, e1, e2, e3, e4⟩ := w.parent _ (w.mem_iff.2 hx) hne
        simp only [Path_append, ← List.append_assoc, path_one] at e1
        have hq : parentDir (dest ++ Path l ++ '/' :: n) = dest ++ Path l := parentDir_ok (hn n (by simp)).2
        rw [e1, parentDir_ok e3] at hq
        rw [← hq, e4] at hl
        cases hl
  refine ⟨.inr ⟨h, hp⟩, fun e he => ?_, fun e he l r hlr _ _ c => ?_⟩
  · rw [key _ (hs.names e he).2]; simp
  · rw [key _ fun n hn => (hs.names e he).2 n (by rw [hlr]; simp [hn])]; simp

/-- A directory with an exported page can take it again. -/
theorem C71_again {initial : Str} (h : Unpacked fs dest site initial fs') : Ready fs' dest site := by
  refine ⟨.inl h.dir, fun e he => ?_, fun e he l r hlr hl hr c => ?_⟩
  · by_cases hi : e.1 = [c!"initial.json"]
    · rw [hi, h.initial]; simp
    · rw [h.files e he hi]; simp
  · rw [h.dirs e he l r hlr hl hr]; simp

/-! ## paths of the command line -/

/-- A relative path is below the current directory, an absolute one is taken as it is, and `..` goes up. -/
theorem C71_path {l : List Str} (hl : ∀ c ∈ l, c ≠ [] ∧ '/' ∉ c) {c : Str} {cs : List Str} (h : ∀ x ∈ c :: cs, PlainName x) (x : Str) (hx : PlainName x) :
    absPath (Path l) (c ++ Path cs) = some (Path (l ++ c :: cs)) ∧ absPath (Path l) (Path (c :: cs)) = some (Path (c :: cs)) ∧
    absPath (Path (l ++ [x])) c!".." = some (Path l) ∧ absPath (Path l) c!"." = some (Path l) := by
  have hcs : ∀ x ∈ c :: cs, '/' ∉ x := fun x hx => (h x hx).2.1
  have hdd : c!".." ∉ c :: cs := fun hm => (h _ hm).2.2.2 rfl
  have hfil : (c :: cs).filter (fun c => decide (c ≠ [] ∧ c ≠ c!".")) = c :: cs := by
    rw [List.filter_eq_self]
    intro x hx
    simp only [decide_eq_true_eq]
    exact ⟨(h x hx).1, (h x hx).2.2.1⟩
  refine ⟨?_, ?_, ?_, ?_⟩
  · unfold absPath
    have hh : (c ++ Path cs).head? ≠ some '/' := by
      have := h c (by simp)
      cases c with
      | nil => exact absurd rfl this.1
      | cons a c =>
        simp only [List.cons_append, List.head?_cons, ne_eq, Option.some.injEq]
        rintro rfl
        exact this.2.1 (by simp)
    rw [if_neg hh, pathComps_Path hl, comps_Path_tail hcs, concatComps_plain _ _ hdd, hfil]
    simp [pathOf_eq]
  · unfold absPath
    have hh : (Path (c :: cs)).head? = some '/' := by simp [Path]
    have hc : comps (Path (c :: cs)) = [] :: c :: cs := by
      have e : Path (c :: cs) = [] ++ Path (c :: cs) := rfl
      rw [e, comps_Path_tail (c := []) (cs := c :: cs) (by simpa using hcs)]
    rw [if_pos hh, hc, concatComps_plain _ _ (by simpa using hdd), List.filter_cons_of_neg (by simp), hfil]
    simp [pathOf_eq]
  · unfold absPath
    have hl' : ∀ c ∈ l ++ [x], c ≠ [] ∧ '/' ∉ c := by
      intro c hc
      rcases List.mem_append.1 hc with hc | hc
      · exact hl c hc
      · simp only [List.mem_singleton] at hc
        exact hc ▸ ⟨hx.1, hx.2.1⟩
    rw [if_neg (by decide), pathComps_Path hl', show comps c!".." = [c!".."] from by decide]
    cases hr : l ++ [x] with
    | nil => simp at hr
    | cons a b =>
      simp only [concatComps]
      rw [if_neg (by decide), if_pos trivial, ← hr, List.dropLast_concat]
      simp [pathOf_eq]
  · unfold absPath
    rw [if_neg (by decide), pathComps_Path hl, show comps c!"." = [c!"."] from by decide, concatComps_plain _ _ (by decide)]
    simp [pathOf_eq]

/-! ## `art export html` -/

theorem ends_html {v : Nat} {w : Option Str} {ty path : Str} (ht : lower ty = c!"html") {d : FilePath} {repo : FilePath} {c : Categorized} {p : Project} (hw : workDir fs cwd w = some d)
    (hr : findRepo fs d = some repo) (hp : ReadsProject S.E.L S.E.readToml S.E.hash S.E.ncpu fs repo (.ok (c, p))) (ha : absPath cwd path = some dest) {st : Nat}
    (h : (st, fs') = exportHtml S.site fs dest (initialJson S.num S.wx (some p) .static).show) : Ends S fs cwd (.export v w ty path) st fs' := by
  unfold Ends
  simp only [hw, ha]
  unfold Exports
  rw [hr]
  refine ⟨_, hp, ?_⟩
  show if lower ty = c!"html" then _ else _
  rw [if_pos ht]
  unfold htmlRun
  rw [ha]
  exact h

theorem ends_html_cases {v : Nat} {w : Option Str} {ty path : Str} (ht : lower ty = c!"html") {st : Nat} (h : Ends S fs cwd (.export v w ty path) st fs') :
    ((st = 1 ∨ st = 101) ∧ fs' = fs) ∨ ∃ d repo c p dest, workDir fs cwd w = some d ∧ findRepo fs d = some repo ∧
      ReadsProject S.E.L S.E.readToml S.E.hash S.E.ncpu fs repo (.ok (c, p)) ∧ absPath cwd path = some dest ∧
      (st, fs') = exportHtml S.site fs dest (initialJson S.num S.wx (some p) .static).show := by
  simp only [Ends] at h
  cases hw : workDir fs cwd w with
  | none => simp only [hw] at h; exact .inl ⟨.inl h.1, h.2⟩
  | some d =>
    simp only [hw] at h
    cases ha : absPath cwd path with
    | none =>
      simp only [ha] at h
      obtain ⟨h1, h2⟩ := h
      cases hr : findRepo fs d with
      | none => simp only [hr] at h2; exact .inl ⟨.inl h2, h1⟩
      | some repo =>
        simp only [hr] at h2
        obtain ⟨out, _, e⟩ := h2
        refine .inl ⟨?_, h1⟩
        rcases out with _ | _ | _
        · exact .inl e
        · exact .inl e
        · exact .inr e
    | some dest =>
      simp only [ha] at h
      unfold Exports at h
      cases hr : findRepo fs d with
      | none => simp only [hr] at h; exact .inl ⟨.inl h.1, h.2⟩
      | some repo =>
        simp only [hr] at h
        obtain ⟨out, ho, h⟩ := h
        rcases out with ⟨c, p⟩ | _ | _
        · simp only [ht, if_true] at h
          unfold htmlRun at h
          rw [ha] at h
          exact .inr ⟨d, repo, c, p, dest, rfl, hr, ho, rfl, h⟩
        · exact .inl ⟨.inl h.1, h.2⟩
        · exact .inl ⟨.inr h.1, h.2⟩

/-- `art export html` succeeds exactly if the project can be read and the directory can take the page. -/
theorem C71_html_iff_ready (hs : GoodSite S.site) {v : Nat} {w : Option Str} {ty path : Str} (ht : lower ty = c!"html") :
    (∃ fs', Ends S fs cwd (.export v w ty path) 0 fs') ↔ ∃ d repo c p dest, workDir fs cwd w = some d ∧ findRepo fs d = some repo ∧
      ReadsProject S.E.L S.E.readToml S.E.hash S.E.ncpu fs repo (.ok (c, p)) ∧ absPath cwd path = some dest ∧ Ready fs dest S.site := by
  constructor
  · rintro ⟨fs', h⟩
    rcases ends_html_cases ht h with ⟨h | h, _⟩ | ⟨d, repo, c, p, dest, h1, h2, h3, h4, h5⟩
    · cases h
    · cases h
    · exact ⟨d, repo, c, p, dest, h1, h2, h3, h4, (C71_html_iff hs _).1 (congrArg Prod.fst h5).symm⟩
  · rintro ⟨d, repo, c, p, dest, h1, h2, h3, h4, h5⟩
    obtain ⟨fs', e, _⟩ := (export_ends hs fs dest (initialJson S.num S.wx (some p) .static).show).1 h5
    exact ⟨fs', ends_html ht h1 h2 h3 h4 e.symm⟩

/-- When `art export html` succeeds the directory has the page, nothing else has changed, and a page that reads the file `initial.json` in it shows exactly the project that
was read. -/
theorem C71_html (hs : GoodSite S.site) {v : Nat} {w : Option Str} {ty path : Str} (ht : lower ty = c!"html") (h : Ends S fs cwd (.export v w ty path) 0 fs') :
    ∃ d repo c p dest text, workDir fs cwd w = some d ∧ findRepo fs d = some repo ∧ ReadsProject S.E.L S.E.readToml S.E.hash S.E.ncpu fs repo (.ok (c, p)) ∧
      absPath cwd path = some dest ∧ Unpacked fs dest S.site text fs' ∧
      ∀ (P : PageLibs), NumbersBack S.num P.read → FilesFit fs → ∀ status,
        handleInitial P true status text = .ok (.recvInitial (some (p.artifacts.map fun x => (x.1, look x.2))) .static) := by
  rcases ends_html_cases ht h with ⟨h | h, _⟩ | ⟨d, repo, c, p, dest, h1, h2, h3, h4, h5⟩
  · cases h
  · cases h
  · have hready := (C71_html_iff hs _).1 (congrArg Prod.fst h5).symm
    obtain ⟨f, e, u⟩ := (export_ends hs fs dest (initialJson S.num S.wx (some p) .static).show).1 hready
    have : f = fs' := by rw [e] at h5; exact (congrArg Prod.snd h5).symm
    subst this
    exact ⟨d, repo, c, p, dest, _, h1, h2, h3, h4, u, fun P hn hf status => (C63_static P hn S.wx status h3 hf .static).1⟩

/-! ## the page on a host that has only files -/

/-- The messages that come up on such a host. -/
inductive Quiet (X : Web.Proj) : Web.Msg → Prop where
  | first : Quiet X (.recvInitial (some X) .static)
  | failed (logs) : Quiet X (.recvError logs)
  | view (v) : Quiet X (.setView v)
  | nav : Quiet X .nav
  | reload (r) : Quiet X (.fetchProject r)
  | save (ids) : Quiet X (.sendUpdate ids)
  | cancel (id) : Quiet X (.stopEdit id)
  | field (id f) : Quiet X (.editArtifact id f)
  | clear (ids) : Quiet X (.clearLogs ids)
  | clearAll : Quiet X .clearAllLogs
  | startNew (id) : Quiet X (.startNew id)
  | startCurrent (id) : Quiet X (.startCurrent id)

/-- The project that is shown after a message. -/
def shownAfter (X shown : Web.Proj) : Web.Msg → Web.Proj
  | .recvInitial _ _ => X
  | _ => shown

theorem quiet_update {X : Web.Proj} {nd : Char → Bool} {lim : Nat} {u : Web.UI} {m : Web.Msg} {r : Web.UI × List Web.Req} (hm : Quiet X m) (hu : u.webType = .static)
    (h : u.update nd lim m = .ok r) : r.1.webType = .static ∧ r.1.shared = shownAfter X u.shared m ∧ ∀ q ∈ r.2, ∃ j ops, q = .modify j ops := by
  cases hm with
  | first =>
    simp only [Web.UI.update, if_true, Res.ok.injEq] at h
    subst h
    exact ⟨rfl, rfl, by simp⟩
  | failed logs =>
    simp only [Web.UI.update, Res.ok.injEq] at h
    subst h
    exact ⟨by simp [hu], by simp [shownAfter], by simp⟩
  | view v =>
    simp only [Web.UI.update, Res.ok.injEq] at h
    subst h
    exact ⟨hu, rfl, by simp⟩
  | nav =>
    simp only [Web.UI.update, Res.ok.injEq] at h
    subst h
    exact ⟨hu, rfl, by simp⟩
  | reload b =>
    simp only [Web.UI.update, Web.UI.startFetchProject, hu, if_true, Res.ok.injEq] at h
    subst h
    exact ⟨by simp [hu], by simp [shownAfter], by simp⟩
  | save ids =>
    simp only [Web.UI.update, Web.UI.startSendUpdate] at h
    split at h
    · simp only [Res.ok.injEq] at h
      subst h
      exact ⟨by simp [hu], by simp [shownAfter], by simp⟩
    · obtain ⟨ops, _, e⟩ := Res.bind_eq_ok.1 h
      simp only [Res.pure_def, Res.ok.injEq] at e
      subst e
      exact ⟨hu, rfl, by simp⟩
  | cancel id =>
    simp only [Web.UI.update] at h
    obtain ⟨u', h1, e⟩ := Res.bind_eq_ok.1 h
    obtain ⟨v, rfl⟩ := Web.completeEditing_ok h1
    simp only [Res.pure_def, Res.ok.injEq] at e
    subst e
    exact ⟨hu, rfl, by simp⟩
  | field id f =>
    simp only [Web.UI.update] at h
    obtain ⟨u', h1, e⟩ := Res.bind_eq_ok.1 h
    obtain ⟨_, _, _, _, rfl⟩ := Web.editArtifact_ok h1
    simp only [Res.pure_def, Res.ok.injEq] at e
    subst e
    exact ⟨hu, rfl, by simp⟩
  | clear ids =>
    simp only [Web.UI.update, Res.ok.injEq] at h
    subst h
    exact ⟨hu, rfl, by simp⟩
  | clearAll =>
    simp only [Web.UI.update, Res.ok.injEq] at h
    subst h
    exact ⟨hu, rfl, by simp⟩
  | startNew id =>
    simp only [Web.UI.update, Res.ok.injEq] at h
    subst h
    exact ⟨hu, rfl, by simp⟩
  | startCurrent id =>
    simp only [Web.UI.update] at h
    obtain ⟨u', h1, e⟩ := Res.bind_eq_ok.1 h
    simp only [Res.pure_def, Res.ok.injEq] at e
    subst e
    unfold Web.UI.startCurrent at h1
    split at h1
    · split at h1
      · simp only [Res.ok.injEq] at h1
        subst h1
        exact ⟨hu, rfl, by simp⟩
      · cases h1
    · cases h1

theorem quiet_page {X : Web.Proj} {nd : Char → Bool} {lim : Nat} {m : Web.Msg} (h : Web.FromPage nd lim m) : Quiet X m ∧ ∀ p w, m ≠ .recvInitial p w := by
  cases h <;> exact ⟨by constructor, by simp⟩

/-- A page from a host that has only files stays what it is: it shows the example until it has read the file `initial.json`, and from then on exactly the project in it,
whatever the user does and whatever the host answers; and it asks for nothing more, except that the user can still try to save (`C37_static_sends`). -/
theorem C71_hosted {X p0 : Web.Proj} {v0 : View} {nd : Char → Bool} {lim : Nat} {tr : List Web.Event} {w : Web.World} (h : Web.Runs nd lim (Web.World.init p0 v0) tr w)
    (hf : FilesOnly X tr) :
    w.ui.webType = .static ∧ ((∃ p t sent, Web.Event.handled (.recvInitial p t) sent ∈ tr) → w.ui.shared = X) ∧
    ((∀ p t sent, Web.Event.handled (.recvInitial p t) sent ∉ tr) → w.ui.shared = p0) ∧
    ∀ m sent, Web.Event.handled m sent ∈ tr → ∀ q ∈ sent, ∃ j ops, q = .modify j ops := by
  have inv : w.ui.webType = .static ∧ (∀ m ∈ w.batch, Quiet X m ∧ ∀ p w, m ≠ .recvInitial p w) ∧ (∀ m ∈ w.arrived, Quiet X m) ∧
      ((∃ p t sent, Web.Event.handled (.recvInitial p t) sent ∈ tr) → w.ui.shared = X) ∧
      ((∀ p t sent, Web.Event.handled (.recvInitial p t) sent ∉ tr) → w.ui.shared = p0) ∧
      ∀ m sent, Web.Event.handled m sent ∈ tr → ∀ q ∈ sent, ∃ j ops, q = .modify j ops := by
    generalize hw0 : Web.World.init p0 v0 = w0 at h
    induction h with
    | nil => subst hw0; exact ⟨rfl, by simp [Web.World.init], by simp [Web.World.init], by simp, fun _ => rfl, by simp⟩
    | @snoc w' w'' tr e hr hst ih =>
      obtain ⟨i1, i2, i3, i4, i5, i6⟩ := ih (fun q m hm => hf q m (List.mem_append_left _ hm))
      -- a message is handled
      have key : ∀ {m : Web.Msg} {r : Web.UI × List Web.Req}, e = .handled m r.2 → Quiet X m → w'.ui.update nd lim m = .ok r →
          r.1.webType = .static ∧ ((∃ p t sent, Web.Event.handled (.recvInitial p t) sent ∈ tr ++ [e]) → r.1.shared = X) ∧
          ((∀ p t sent, Web.Event.handled (.recvInitial p t) sent ∉ tr ++ [e]) → r.1.shared = p0) ∧
          ∀ m sent, Web.Event.handled m sent ∈ tr ++ [e] → ∀ q ∈ sent, ∃ j ops, q = .modify j ops := by
        rintro m r rfl hq hu
        obtain ⟨k1, k2, k3⟩ := quiet_update hq i1 hu
        refine ⟨k1, ?_, ?_, ?_⟩
        · rintro ⟨p, t, sent, hm⟩
          rcases List.mem_append.1 hm with hm | hm
          · rw [k2]
            unfold shownAfter
            split
            · rfl
            · exact i4 ⟨p, t, sent, hm⟩
          · simp only [List.mem_singleton, Web.Event.handled.injEq] at hm
            rw [k2, ← hm.1]
            rfl
        · intro hno
          rw [k2]
          unfold shownAfter
          split
          · rename_i p t
            exact absurd (List.mem_append_right _ (by simp)) (hno p t r.2)
          · exact i5 fun p t sent hm => hno p t sent (List.mem_append_left _ hm)
        · intro m' sent hm
          rcases List.mem_append.1 hm with hm | hm
          · exact i6 m' sent hm
          · simp only [List.mem_singleton, Web.Event.handled.injEq] at hm
            rw [hm.2]
            exact k3
      have other : (∀ m sent, e ≠ .handled m sent) →
          ((∃ p t sent, Web.Event.handled (.recvInitial p t) sent ∈ tr ++ [e]) → w'.ui.shared = X) ∧
          ((∀ p t sent, Web.Event.handled (.recvInitial p t) sent ∉ tr ++ [e]) → w'.ui.shared = p0) ∧
          ∀ m sent, Web.Event.handled m sent ∈ tr ++ [e] → ∀ q ∈ sent, ∃ j ops, q = .modify j ops := by
        intro hne
        have hmem : ∀ m sent, Web.Event.handled m sent ∈ tr ++ [e] ↔ Web.Event.handled m sent ∈ tr := by
          intro m sent
          simp only [List.mem_append, List.mem_singleton, or_iff_left_iff_imp]
          exact fun h => absurd h.symm (hne m sent)
        simp only [hmem]
        exact ⟨i4, i5, i6⟩
      cases hst with
      | page hb hp hu =>
        obtain ⟨k1, k2, k3, k4⟩ := key rfl (quiet_page hp).1 hu
        exact ⟨k1, i2, i3, k2, k3, k4⟩
      | create hb hv =>
        obtain ⟨k2, k3, k4⟩ := other (by simp)
        refine ⟨i1, ?_, i3, k2, k3, k4⟩
        intro m hm
        simp only [List.mem_cons, List.not_mem_nil, or_false] at hm
        rcases hm with rfl | rfl
        · exact ⟨.startNew _, by simp⟩
        · exact ⟨.view _, by simp⟩
      | edit hb hv =>
        obtain ⟨k2, k3, k4⟩ := other (by simp)
        refine ⟨i1, ?_, i3, k2, k3, k4⟩
        intro m hm
        simp only [List.mem_cons, List.not_mem_nil, or_false] at hm
        rcases hm with rfl | rfl
        · exact ⟨.startCurrent _, by simp⟩
        · exact ⟨.view _, by simp⟩
      | next hb hu =>
        obtain ⟨k1, k2, k3, k4⟩ := key rfl (i2 _ (by rw [hb]; simp)).1 hu
        exact ⟨k1, fun m hm => i2 m (by rw [hb]; exact List.mem_cons_of_mem _ hm), i3, k2, k3, k4⟩
      | @response a q b m ho ha =>
        obtain ⟨k2, k3, k4⟩ := other (by simp)
        refine ⟨i1, i2, ?_, k2, k3, k4⟩
        intro m' hm
        rcases List.mem_append.1 hm with hm | hm
        · exact i3 m' hm
        · simp only [List.mem_singleton] at hm
          subst hm
          rcases hf q m' (by simp) with ⟨_, rfl⟩ | ⟨_, logs, rfl⟩
          · exact .first
          · exact .failed logs
      | deliver hb harr hu =>
        obtain ⟨k1, k2, k3, k4⟩ := key rfl (i3 _ (by rw [harr]; simp)) hu
        exact ⟨k1, i2, fun m hm => i3 m (by rw [harr]; exact List.mem_cons_of_mem _ hm), k2, k3, k4⟩
  exact ⟨inv.1, inv.2.2.2⟩

/-! ## every command -/

/-- The exit status is 0, 1 or 101, or that of `art check` with warnings. -/
theorem C71_status {c : Cmd} {st : Nat} (h : Ends S fs cwd c st fs') : st = 0 ∨ st = 1 ∨ st = 101 ∨ (st = 2 ∧ ∃ v w, c = .check v w) := by
  have hstat : ∀ {ε α : Type} (r : Res ε α), statusOf r = 0 ∨ statusOf r = 1 ∨ statusOf r = 101 := by
    intro ε α r; cases r <;> simp [statusOf]
  cases c with
  | init v w =>
    simp only [Ends] at h
    split at h
    · exact .inr (.inl h.1)
    · have := congrArg Prod.fst h
      simp only [initRun] at this
      split at this
      · simp only at this
        split at this
        · exact .inl this
        · exact .inr (.inl this)
      · exact .inr (.inl this)
  | check v w =>
    simp only [Ends] at h
    split at h
    · exact .inr (.inl h.1)
    · have h := h.1
      unfold Checks at h
      split at h
      · exact .inr (.inl h)
      · obtain ⟨out, _, rfl⟩ := h
        rcases out with ⟨c, p⟩ | _ | _
        · simp only [checkResult]
          split
          · exact .inr (.inl rfl)
          · split
            · exact .inr (.inr (.inr ⟨rfl, v, w, rfl⟩))
            · exact .inl rfl
        · exact .inr (.inl rfl)
        · exact .inr (.inr (.inl rfl))
  | fmt v w ty =>
    simp only [Ends] at h
    split at h
    · exact .inr (.inl h.1)
    · obtain ⟨out, _, rfl⟩ := h
      rcases hstat out with h | h | h <;> simp [h]
  | ls v w x b =>
    simp only [Ends] at h
    split at h
    · exact .inr (.inl h.1)
    · obtain ⟨out, _, rfl, _⟩ := h
      rcases hstat (lsPrint S.compile x b out) with h | h | h <;> simp [h]
  | serve v w port =>
    simp only [Ends] at h
    split at h
    · exact .inr (.inl h.1)
    · obtain ⟨out, _, h⟩ := h
      rcases out with ⟨c, p⟩ | _ | _
      · obtain ⟨hist, t, _, _, rfl, _⟩ := h
        split <;> simp
      · exact .inr (.inl h.1)
      · exact .inr (.inr (.inl h.1))
  | «export» v w ty path =>
    by_cases ht : lower ty = c!"html"
    · rcases ends_html_cases ht h with ⟨h | h, _⟩ | ⟨d, repo, c, p, dest, _, _, _, _, h5⟩
      · exact .inr (.inl h)
      · exact .inr (.inr (.inl h))
      · have := congrArg Prod.fst h5
        simp only [exportHtml] at this
        split at this
        · exact .inl this
        · exact .inr (.inl this)
    · simp only [Ends] at h
      split at h
      · exact .inr (.inl h.1)
      · split at h
        · have h := h.2
          split at h
          · exact .inr (.inl h)
          · obtain ⟨out, _, h⟩ := h
            rcases out with _ | _ | _
            · exact .inr (.inl h)
            · exact .inr (.inl h)
            · exact .inr (.inr (.inl h))
        · rcases (C55_only_dest h ht).2.2 with h | h | h <;> simp [h]
  | missing => exact .inr (.inl h.1)
  | unknown s => exact .inr (.inl h.1)

/-- The path of an action. -/
def SiteStep.at : SiteStep → FilePath
  | .mkdir p => p
  | .put p _ => p
  | .rewrite p _ => p

theorem apply_frame {a : SiteStep} {fs fs' : FS} (h : a.apply fs = some fs') (q : FilePath)
    (hq : q ≠ a.at) : IMap.get? fs' q = IMap.get? fs q := by
  cases a with
  | mkdir p =>
    simp only [SiteStep.at] at hq
    simp only [SiteStep.apply, makeDir] at h
    split at h
    · cases h; rfl
    · cases h
    · split at h
      · cases h; rw [disk_insert, if_neg (Ne.symm hq)]
      · cases h
  | put p c =>
    simp only [SiteStep.at] at hq
    simp only [SiteStep.apply] at h
    split at h
    · cases h
    · cases h; rw [disk_insert, if_neg (Ne.symm hq)]
    · split at h
      · cases h; rw [disk_insert, if_neg (Ne.symm hq)]
      · cases h
  | rewrite p s =>
    simp only [SiteStep.at] at hq
    simp only [SiteStep.apply] at h
    split at h
    · cases h; rw [disk_insert, if_neg (Ne.symm hq)]
    · cases h

theorem runSite_frame (q : FilePath) : ∀ (l : List SiteStep) (fs : FS), (∀ a ∈ l, q ≠ a.at) →
    IMap.get? (runSite fs l).2 q = IMap.get? fs q
  | [], _, _ => rfl
  | a :: l, fs, h => by
    unfold runSite
    split
    · rfl
    · rename_i g hg
      rw [runSite_frame q l g fun b hb => h b (List.mem_cons_of_mem _ hb)]
      exact apply_frame hg q (h a (by simp))

theorem putSteps_paths (q : FilePath) (c : Content) : ∀ (l : List Str) (dir : FilePath), (∀ a b, l = a ++ b → a ≠ [] → q ≠ dir ++ Path a) →
    ∀ a ∈ putSteps dir c l, q ≠ a.at
  | [], _, _ => by simp [putSteps]
  | [n], dir, h => by
    simp only [putSteps, List.mem_singleton, below_eq]
    rintro a rfl
    exact h [n] [] rfl (by simp)
  | n :: m :: l, dir, h => by
    simp only [putSteps, List.mem_cons, below_eq]
    rintro a (rfl | ha)
    · exact h [n] (m :: l) rfl (by simp)
    · refine putSteps_paths q c (m :: l) _ (fun a b e ha => ?_) a ha
      rw [← path_cons]
      exact h (n :: a) b (by rw [e]; rfl) (by simp)

/-- A command other than `serve` changes only what it may; whether it succeeds or not. -/
theorem C71_changes (hwf : FS.WF fs) (hi : ∃ c, ([c!"initial.json"], c) ∈ S.site) {c : Cmd} {st : Nat} (h : Ends S fs cwd c st fs') (hc : ∀ v w port, c ≠ .serve v w port) {q : FilePath}
    (hq : IMap.get? fs' q ≠ IMap.get? fs q) : Touches S fs cwd c q := by
  have no : fs' = fs → Touches S fs cwd c q := fun e => absurd (by rw [e]) hq
  cases c with
  | init v w =>
    simp only [Ends] at h
    split at h
    · exact no h.2
    · rename_i d hd
      obtain ⟨k, hk⟩ := initRun_killed (fs := fs) (work := d)
      have e : fs' = initKilled fs d k := by rw [← hk, ← h]
      by_contra hn
      exact hq (by rw [e]; exact (C56_only k).1 q fun hm => hn (.init hd hm))
  | check v w =>
    simp only [Ends] at h
    split at h
    · exact no h.2
    · exact no h.2
  | fmt v w ty =>
    simp only [Ends] at h
    split at h
    · exact no h.2
    · rename_i repo hr
      obtain ⟨d, hd, hr⟩ := Option.bind_eq_some_iff.1 hr
      obtain ⟨out, hm, _⟩ := h
      by_cases hs : ∃ s, SettingsOf S.E.readToml fs repo s
      · obtain ⟨s, hs⟩ := hs
        exact .fmt hd hr hs ((C49_frame hwf hs (by intro op ho; cases ho) hm).1 q hq)
      · exact no (C49_no_settings hs hm)
  | ls v w x b =>
    simp only [Ends] at h
    split at h
    · exact no h.2
    · obtain ⟨_, _, _, e⟩ := h
      exact no e
  | serve v w port => exact absurd rfl (hc v w port)
  | «export» v w ty path =>
    by_cases ht : lower ty = c!"html"
    · rcases ends_html_cases ht h with ⟨_, e⟩ | ⟨d, repo, c, p, dest, _, _, _, h4, h5⟩
      · exact no e
      · by_contra hn
        apply hq
        have e : fs' = (runSite fs (siteSteps S.site dest (initialJson S.num S.wx (some p) .static).show)).2 := congrArg Prod.snd h5
        rw [e]
        apply runSite_frame
        intro a ha
        simp only [siteSteps, List.cons_append, List.mem_cons, List.mem_append, List.mem_flatMap, List.not_mem_nil, or_false] at ha
        rcases ha with rfl | ⟨x, hx, ha⟩ | rfl
        · rintro rfl; exact hn (.html ht h4)
        · refine putSteps_paths q x.2 x.1 dest (fun l r e hl => ?_) a ha
          rintro rfl
          exact hn (.page ht h4 hx e hl)
        · obtain ⟨c0, hc0⟩ := hi
          simp only [below_eq]
          rintro rfl
          exact hn (.page (l := [c!"initial.json"]) (r := []) ht h4 hc0 rfl (by simp))
    · simp only [Ends] at h
      split at h
      · exact no h.2
      · split at h
        · exact no h.1
        · rename_i dest hd
          by_contra hn
          exact hq ((C55_only_dest h ht).1 q fun e => hn (by subst e; exact .markdown ht hd))
  | missing => exact no h.2
  | unknown s => exact no h.2

/-- Outside a project, and with a directory that is not there, every command but `init` ends with 1 and changes nothing. -/
theorem C71_outside {w : Option Str} {c : Cmd} (hu : Uses w c) (h : ∀ d, workDir fs cwd w = some d → findRepo fs d = none) (st : Nat) :
    Ends S fs cwd c st fs' ↔ st = 1 ∧ fs' = fs := by
  have hb : (workDir fs cwd w).bind (findRepo fs) = none := Option.bind_eq_none_iff.2 h
  cases hu with
  | check v =>
    simp only [Ends]
    cases hw : workDir fs cwd w with
    | none => exact Iff.rfl
    | some d => simp only [Checks, h d hw]
  | fmt v ty => simp only [Ends, hb]
  | ls v x b => simp only [Ends, hb]
  | serve v port => simp only [Ends, hb]
  | «export» v ty path =>
    simp only [Ends]
    cases hw : workDir fs cwd w with
    | none => exact Iff.rfl
    | some d =>
      simp only
      cases ha : absPath cwd path with
      | none => simp only [h d hw]; exact and_comm
      | some dest => simp only [Exports, h d hw]

/-- With a work directory that is not there, or is a file, every command ends with 1 and changes nothing, `init` too. -/
theorem C71_no_dir {l : List Str} (hl : ∀ c ∈ l, c ≠ [] ∧ '/' ∉ c) {c : Str} {cs : List Str} (h : ∀ x ∈ c :: cs, PlainName x)
    (hd : IMap.get? fs (Path (l ++ c :: cs)) ≠ some .dir) {cmd : Cmd} (hu : Uses (some (c ++ Path cs)) cmd ∨ ∃ v, cmd = .init v (some (c ++ Path cs))) (st : Nat) :
    Ends S fs (Path l) cmd st fs' ↔ st = 1 ∧ fs' = fs := by
  have hw : workDir fs (Path l) (some (c ++ Path cs)) = none := by
    simp only [workDir, (C71_path hl h c (h c (by simp))).1, Option.filter, decide_eq_true_eq, if_neg hd]
  rcases hu with hu | ⟨v, rfl⟩
  · exact C71_outside hu (fun d e => by rw [hw] at e; cases e) st
  · simp only [Ends, hw]

/-- The option `--type` of `art fmt` has no effect. -/
theorem C71_fmt_type (v v' : Nat) (w : Option Str) (ty ty' : Option Str) (st : Nat) : Ends S fs cwd (.fmt v w ty) st fs' ↔ Ends S fs cwd (.fmt v' w ty') st fs' := Iff.rfl

/-- The words of a command run it. -/
theorem C71_runs {a : AppDef} (ha : a ∈ apps) {ps : List Part} {ws : List Str} {c : Cmd} (hl : Line a ps ws) (hf : Fits a ps) (hi : Intends ps a c) (st : Nat) :
    Main S fs cwd (a.name :: ws) st fs' ↔ Ends S fs cwd c st fs' := by
  unfold Main
  rw [(C70_command _ c).2 (.inr ⟨a, ha, ws, ps, rfl, hl, hf, hi⟩)]

/-- Parts that do not fit are refused with 1, and nothing is changed. -/
theorem C71_refused {a : AppDef} (ha : a ∈ apps) {ps : List Part} {ws : List Str} (hl : Line a ps ws) (hf : ¬ Fits a ps) (st : Nat) :
    Main S fs cwd (a.name :: ws) st fs' ↔ st = 1 ∧ fs' = fs := by
  unfold Main
  rw [C70_refused ha hl hf]

/-- Whatever the words are: the exit status is one of four, and a change of the disk comes from a command. -/
theorem C71_main {l : List Str} {st : Nat} (h : Main S fs cwd l st fs') :
    (st = 0 ∨ st = 1 ∨ st = 2 ∨ st = 101) ∧ (fs' ≠ fs → ∃ a ∈ apps, ∃ ws ps c, l = a.name :: ws ∧ Line a ps ws ∧ Fits a ps ∧ Intends ps a c ∧ Ends S fs cwd c st fs') := by
  unfold Main at h
  split at h
  · rename_i c hc
    refine ⟨by rcases C71_status h with h | h | h | ⟨h, _⟩ <;> simp [h], fun hne => ?_⟩
    rcases (C70_command l c).1 hc with ⟨_, rfl⟩ | ⟨a, ha, ws, ps, h1, h2, h3, h4⟩
    · exact absurd h.2 hne
    · exact ⟨a, ha, ws, ps, c, h1, h2, h3, h4, h⟩
  · exact ⟨.inl h.1, fun hne => absurd h.2 hne⟩
  · exact ⟨.inr (.inl h.1), fun hne => absurd h.2 hne⟩
  · exact h.elim

/-- `art serve` itself writes nothing unless a page asks for it: without changes by others, updates and crashes the disk stays as it is. -/
theorem C71_serve_reads {E : Env} {s t : Server} {hist : List Event} (h : Art.Runs E s hist t) (he : Event.edit ∉ hist) (hd : Event.die ∉ hist)
    (hm : ∀ i q a, Event.finish i (.modify q) a ∉ hist) : t.disk = s.disk := by
  induction h with
  | nil => rfl
  | @snoc hist t e u hr hst ih =>
    have ih := ih (fun h => he (by simp [h])) (fun h => hd (by simp [h])) (fun i q a h => hm i q a (by simp [h]))
    rw [← ih]
    cases hst with
    | work _ _ _ hh =>
      cases hh with
      | modify => exact absurd (List.mem_append_right _ (List.mem_singleton.2 rfl)) (hm _ _ _)
      | _ => rfl
    | edit => exact absurd (by simp) he
    | die => exact absurd (by simp) hd
    | _ => rfl

end Cli
end Art
