import Verif.Props.Whole

/-!
C53: a save through a page is possible whenever the modification is, and a concrete history.
-/

namespace Art
namespace Whole
open Spec

section
variable {E : Env} {nd : Char → Bool} {lim : Nat} {S0 S : Sys} {tr : List Ev}

/-- Something happens on page 0. -/
theorem Runs.onPage (h : Runs E nd lim S0 tr S) {W W' : Web.World} {e : Web.Event} (hw : S.pages 0 = W) (hs : Web.Step nd lim W e W') (hne : ∀ q m, e ≠ .response q m) :
    ∃ S', Runs E nd lim S0 (tr ++ [.page 0 e]) S' ∧ S'.pages 0 = W' ∧ S'.server = S.server ∧ S'.link = S.link := by
  subst hw
  exact ⟨_, h.snoc (.page hs hne), by simp [Sys.setPage], rfl, rfl⟩

/-- Page 0 asks the server and gets its answer. -/
theorem Runs.asks (h : Runs E nd lim S0 tr S) {W : Web.World} {q : Web.Req} {rq : Request} {jid i : Nat} {P : Web.Proj} {w : ProjectResult} {fs' : FS}
    (hw : S.pages 0 = W) (ho : W.outstanding = [q]) (hq : wireReq q = some rq) (hl : ∀ j, S.link j ≠ some (0, q)) (ha : S.server.alive = true)
    (hi : S.server.threads i = .idle) (hh : S.server.holder = none) (hp : S.server.poisoned = false)
    (hd : Handles E S.server.disk S.server.value rq (.success w, w) fs') (hb : Becomes E.strict q (.success w) (.recvProject jid P)) (hans : Web.Answers q (.recvProject jid P)) :
    ∃ S' tr', Runs E nd lim S0 (tr ++ tr') S' ∧ S'.pages 0 = { W with outstanding := [], arrived := W.arrived ++ [.recvProject jid P] } ∧
      S'.server.disk = fs' ∧ S'.server.value = w ∧ S'.server.alive = true ∧ S'.server.holder = none ∧ S'.server.poisoned = false ∧
      (∀ j, j ≠ i → S'.server.threads j = S.server.threads j ∧ S'.link j = S.link j) ∧ S'.link i = some (0, q) ∧
      Ev.answer 0 q i (.success w) (.recvProject jid P) ∈ tr' := by
  subst hw
  have hg := handles_not_garbage hd
  have s1 := h.snoc (.request (k := 0) (i := i) (by rw [ho]; simp) hq hl (.arrive ha hi))
  have s2 := s1.snoc (.server (.lock (i := i) (r := rq) ha (by simp [Server.set]) hg hh hp))
  have s3 := s2.snoc (.server (.work (i := i) (r := rq) (out := (.success w, w)) (fs' := fs') ha (by simp [Server.set]) rfl hd))
  have hweb : Web.Step nd lim (S.pages 0) (.response q (.recvProject jid P))
      { S.pages 0 with outstanding := [], arrived := (S.pages 0).arrived ++ [.recvProject jid P] } := by
    have := Web.Step.response (nd := nd) (lim := lim) (w := S.pages 0) (a := []) (q := q) (b := []) ho hans
    simpa using this
  have s4 := s3.snoc (.answer (k := 0) (q := q) (i := i) (a := .success w) (m := .recvProject jid P) (by simp) (.send ha (by simp [Server.set])) hb hweb)
  rw [List.append_assoc, List.append_assoc, List.append_assoc] at s4
  refine ⟨_, _, s4, by simp [Sys.setPage], rfl, rfl, ha, rfl, rfl, ?_, ?_, by simp⟩
  · intro j hj
    simp [Server.set, Sys.setPage, hj]
  · simp [Sys.setPage]

theorem nameBangs_raw (l : List Name) : Res.mapM' Web.nameBang (l.map Name.raw) = .ok l := by
  rw [mapM'_of_map, mapM'_map (f' := fun n => n) (fun n _ => Web.nameBang_ok.2 rfl)]
  simp

/-- Whenever a modification that changes the text of an artifact is possible, it can be made through a page, and ends with the form closed: the page is opened, reads the project,
the user presses Edit, types the text, presses Save and goes to the graph, the answer comes. -/
theorem C53_can_save {fs fs' : FS} {dir repo : FilePath} {c : Categorized} {p : Project} {x : Name × Artifact} {t : Str} {r : ProjectResult}
    (hf : findRepo fs dir = some repo) (hr : ReadsProject E.L E.readToml E.hash E.ncpu fs repo (.ok (c, p))) (hx : x ∈ p.artifacts) (hd : x.2.impl.doneStr ≠ some [])
    (hm : Modifies E.L E.readToml E.hash E.dbg E.ncpu fs repo [.update ⟨x.2.name, x.2.file, x.2.partof, x.2.impl.doneStr, t⟩ x.2.id]
      (some (.ok (r.lints, r.project))) fs') :
    ∃ s0 tr S P e w', Starts E fs dir repo s0 ∧ Runs E Web.exNd 1000 (Sys.init s0 [] (fun _ => .artifact x.1)) tr S ∧
      (S.pages 0).ui.editing.get? 1 = some e ∧ e.originalId = some x.2.id ∧ e.text = t ∧
      Web.Step Web.exNd 1000 (S.pages 0) (.handled (.recvProject 2 P) []) w' ∧ w'.ui.editing.get? 1 = none ∧ S.server.disk = fs' ∧ Shows P r.project := by
  have hst : Starts E fs dir repo (Server.init fs ⟨p, c⟩) := .start hf hr
  have hbase : p.settings.base = repo := base_of_read hr
  have hn := read_neat hr
  have hlink : ISet.Nodup x.2.partof := hn.links x hx
  obtain ⟨P, hP, hsh, hPn⟩ := readShared_neat E.strict hn (List.Perm.refl _)
  have hls : LinkSets [.update ⟨x.2.name, x.2.file, x.2.partof, x.2.impl.doneStr, t⟩ x.2.id] := by
    intro op ho a ha
    simp only [List.mem_singleton] at ho
    subst ho
    rw [brings_of_update.1 ha]
    exact hlink
  obtain ⟨P', hP', hsh', _⟩ := readShared_neat E.strict (modify_neat hls hm) (List.Perm.refl _)
  have hget : P.get? x.1 = some (look x.2) := IMap.get?_of_mem hPn (hsh.mem_iff.2 (List.mem_map.2 ⟨x, hx, rfl⟩))
  -- the page is opened
  have a0 : Runs E Web.exNd 1000 (Sys.init (Server.init fs ⟨p, c⟩) [] (fun _ => .artifact x.1)) [] _ := .nil
  have a1 := a0.snoc (.initial (k := 0) (.response (a := []) (b := []) (q := .initial) rfl (.initial none .editable)))
  obtain ⟨S2, a2, w2, v2, l2⟩ := a1.onPage (by simp [Sys.setPage]; rfl) (.deliver (ms := []) (r := (_, _)) rfl rfl rfl) nofun
  -- it reads the project
  obtain ⟨S3, t3, a3, w3, d3, u3, al3, ho3, po3, th3, li3, -⟩ := a2.asks (q := .read 0 false) (i := 0) (jid := 0) (P := P) w2 rfl rfl
    (by rw [l2]; simp [Sys.setPage, Sys.init]) (by rw [v2]; rfl) (by rw [v2]; rfl) (by rw [v2]; rfl) (by rw [v2]; rfl)
    (by rw [v2]; exact .read (Or.inr rfl)) (.read (List.Perm.refl _) hP) (.read _ _ _)
  obtain ⟨S4, a4, w4, v4, l4⟩ := a3.onPage w3 (.deliver (ms := []) (r := (_, _)) rfl rfl rfl) nofun
  -- Edit
  obtain ⟨S5, a5, w5, v5, l5⟩ := a4.onPage w4 (.edit rfl (C47_edit_link Web.exNd 1000 1 (by decide))) nofun
  obtain ⟨S6, a6, w6, v6, l6⟩ := a5.onPage w5 (.next (r := (⟨.editable, P, .artifact x.1, false, [], [], [(1, Web.Edit.fromArtifact (look x.2))], [], 2⟩, [])) rfl
    (by
      show (do pure (← Web.UI.startCurrent ⟨.editable, P, .artifact x.1, false, [], [], [], [], 2⟩ 1, []) : Res Empty (Web.UI × List Web.Req)) = _
      simp only [Web.UI.startCurrent, hget]
      rfl)) nofun
  obtain ⟨S7, a7, w7, v7, l7⟩ := a6.onPage w6 (.next (r := (_, _)) rfl rfl) nofun
  -- the text is typed
  obtain ⟨S8, a8, w8, v8, l8⟩ := a7.onPage w7 (.page (r := (_, _)) rfl (.field 1 (.text t)) rfl) nofun
  -- Save
  have him : ({ Web.Edit.fromArtifact (look x.2) with text := t } : Web.Edit).toIm = .ok ⟨x.2.name, x.2.file, x.2.partof, x.2.impl.doneStr, t⟩ := by
    unfold Web.Edit.toIm
    have h1 : ({ Web.Edit.fromArtifact (look x.2) with text := t } : Web.Edit).partof = x.2.partof.map Name.raw := rfl
    have h2 : Web.nameBang ({ Web.Edit.fromArtifact (look x.2) with text := t } : Web.Edit).name = .ok x.2.name := Web.nameBang_ok.2 rfl
    have h3 : (if ({ Web.Edit.fromArtifact (look x.2) with text := t } : Web.Edit).done = [] then none else some ({ Web.Edit.fromArtifact (look x.2) with text := t } : Web.Edit).done)
        = x.2.impl.doneStr := by
      show (if x.2.impl.doneStr.getD [] = [] then none else some (x.2.impl.doneStr.getD [])) = _
      cases hds : x.2.impl.doneStr with
      | none => rfl
      | some d =>
        rw [hds] at hd
        simp only [Option.getD_some]
        rw [if_neg (fun h => hd (by rw [h]))]
    rw [h1, nameBangs_raw, h2, h3]
    show Res.ok (⟨x.2.name, x.2.file, ISet.collect x.2.partof, x.2.impl.doneStr, t⟩ : ArtifactIm) = _
    rw [ISet.collect_of_nodup hlink]
  have hop : Res.mapM' (Web.UI.opOf ⟨.editable, P, .edit 1, false, [], [], [(1, { Web.Edit.fromArtifact (look x.2) with text := t })], [], 2⟩) [1] =
      .ok [.update ⟨x.2.name, x.2.file, x.2.partof, x.2.impl.doneStr, t⟩ x.2.id] := by
    have : Web.UI.opOf ⟨.editable, P, .edit 1, false, [], [], [(1, { Web.Edit.fromArtifact (look x.2) with text := t })], [], 2⟩ 1 =
        (({ Web.Edit.fromArtifact (look x.2) with text := t } : Web.Edit).toIm >>= fun im => pure (.update im x.2.id)) := rfl
    simp only [Res.mapM', this, him]
    rfl
  obtain ⟨S9, a9, w9, v9, l9⟩ := a8.onPage w8 (.page (r := (⟨.editable, P, .edit 1, true, [], [], [(1, { Web.Edit.fromArtifact (look x.2) with text := t })], [(2, [1])], 3⟩,
      [.modify 2 [.update ⟨x.2.name, x.2.file, x.2.partof, x.2.impl.doneStr, t⟩ x.2.id]])) rfl (.save 1)
    (by
      show ((Res.mapM' (Web.UI.opOf ⟨.editable, P, .edit 1, false, [], [], [(1, { Web.Edit.fromArtifact (look x.2) with text := t })], [], 2⟩) [1]) >>=
        fun ops => (pure (⟨.editable, P, .edit 1, true, [], [], [(1, { Web.Edit.fromArtifact (look x.2) with text := t })], [(2, [1])], 3⟩, [Web.Req.modify 2 ops]) :
          Res Empty (Web.UI × List Web.Req))) = _
      rw [hop]
      rfl)) nofun
  obtain ⟨S10, a10, w10, v10, l10⟩ := a9.onPage w9 (.page (r := (_, _)) rfl (.route (Web.fromHash_graph (nd := Web.exNd) (lim := 1000))) rfl) nofun
  have hv : S10.server = S3.server := by rw [v10, v9, v8, v7, v6, v5, v4]
  have hl : S10.link = S3.link := by rw [l10, l9, l8, l7, l6, l5, l4]
  obtain ⟨S11, t11, a11, w11, d11, -, -, -, -, -, -, -⟩ := a10.asks (q := .modify 2 [.update ⟨x.2.name, x.2.file, x.2.partof, x.2.impl.doneStr, t⟩ x.2.id]) (i := 1) (jid := 2) (P := P') (w := r) (fs' := fs') w10 rfl rfl
    (by
      intro j
      rw [hl]
      by_cases hj : j = 0
      · subst hj
        rw [li3]
        simp
      · rw [(th3 j hj).2, l2]
        simp [Sys.setPage, Sys.init])
    (by rw [hv]; exact al3) (by rw [hv, (th3 1 (by decide)).1, v2]; rfl) (by rw [hv]; exact ho3) (by rw [hv]; exact po3)
    (by
      rw [hv, u3, d3]
      have hw : Handles E fs ⟨p, c⟩ (.modify (some (some [wireOp (.update ⟨x.2.name, x.2.file, x.2.partof, x.2.impl.doneStr, t⟩ x.2.id)])))
          (modifyWith ⟨p, c⟩ (.ok (r.lints, r.project))) fs' := by
        refine .modify (ops' := [.update ⟨x.2.name, x.2.file, x.2.partof, x.2.impl.doneStr, t⟩ x.2.id]) ?_ (by rw [hbase]; exact hm)
        simp only [Res.mapM', wireOp_read E.strict (hls _ (List.mem_singleton.2 rfl))]
        rfl
      exact hw)
    (.modify (List.Perm.refl _) hP') (.modify _ _ _)
  refine ⟨_, _, S11, P', _, _, hst, a11, by rw [w11]; rfl, rfl, rfl, by rw [w11]; exact .deliver (ms := []) (r := (_, _)) rfl rfl rfl, rfl, d11, hsh'⟩

/-- A page can reload: it is opened, reads the project, and the user presses Reload. -/
theorem can_reload {fs : FS} {dir repo : FilePath} {c : Categorized} {p : Project}
    (hf : findRepo fs dir = some repo) (hr : ReadsProject E.L E.readToml E.hash E.ncpu fs repo (.ok (c, p))) :
    ∃ s0 tr S i a P, Starts E fs dir repo s0 ∧ Runs E Web.exNd 1000 (Sys.init s0 [] (fun _ => .graph)) tr S ∧ Ev.answer 0 (.read 1 true) i a (.recvProject 1 P) ∈ tr ∧
      (S.pages 0).ui.fetching = true := by
  have hst : Starts E fs dir repo (Server.init fs ⟨p, c⟩) := .start hf hr
  have hbase : p.settings.base = repo := base_of_read hr
  obtain ⟨P, hP, -, -⟩ := readShared_neat E.strict (read_neat hr) (List.Perm.refl _)
  have a0 : Runs E Web.exNd 1000 (Sys.init (Server.init fs ⟨p, c⟩) [] (fun _ => .graph)) [] _ := .nil
  have a1 := a0.snoc (.initial (k := 0) (.response (a := []) (b := []) (q := .initial) rfl (.initial none .editable)))
  obtain ⟨S2, a2, w2, v2, l2⟩ := a1.onPage (by simp [Sys.setPage]; rfl) (.deliver (ms := []) (r := (_, _)) rfl rfl rfl) nofun
  obtain ⟨S3, t3, a3, w3, d3, u3, al3, ho3, po3, th3, li3, -⟩ := a2.asks (q := .read 0 false) (i := 0) (jid := 0) (P := P) w2 rfl rfl
    (by rw [l2]; simp [Sys.setPage, Sys.init]) (by rw [v2]; rfl) (by rw [v2]; rfl) (by rw [v2]; rfl) (by rw [v2]; rfl)
    (by rw [v2]; exact .read (Or.inr rfl)) (.read (List.Perm.refl _) hP) (.read _ _ _)
  obtain ⟨S4, a4, w4, v4, l4⟩ := a3.onPage w3 (.deliver (ms := []) (r := (_, _)) rfl rfl rfl) nofun
  obtain ⟨S5, a5, w5, v5, l5⟩ := a4.onPage w4 (.page (r := (_, _)) rfl .reload rfl) nofun
  have hv : S5.server = S3.server := by rw [v5, v4]
  have hl : S5.link = S3.link := by rw [l5, l4]
  obtain ⟨S6, t6, a6, w6, -, -, -, -, -, -, -, hans⟩ := a5.asks (q := .read 1 true) (i := 1) (jid := 1) (P := P) (w := ⟨p, c⟩) (fs' := fs) w5 rfl rfl
    (by
      intro j
      rw [hl]
      by_cases hj : j = 0
      · subst hj
        rw [li3]
        simp
      · rw [(th3 j hj).2, l2]
        simp [Sys.setPage, Sys.init])
    (by rw [hv]; exact al3) (by rw [hv, (th3 1 (by decide)).1, v2]; rfl) (by rw [hv]; exact ho3) (by rw [hv]; exact po3)
    (by
      rw [hv, u3, d3]
      have hw : Handles E fs ⟨p, c⟩ (.read (some (some true))) (reloadWith ⟨p, c⟩ (.ok (c, p))) fs := .reload (by rw [hbase]; exact hr)
      exact hw)
    (.read (List.Perm.refl _) hP) (.read _ _ _)
  exact ⟨_, _, S6, 1, _, P, hst, a6, List.mem_append_right _ hans, by rw [w6]; rfl⟩

end

/-! ## Concrete cases -/

/-- SPC-b with another text. -/
def exTypedB : ArtifactIm := { exImB with text := c!"new" }

theorem exSave_now : ((readNow keptLibs exId exGood exS).toOption.map (fun r => r.2.artifacts.map (fun x => (x.2.toIm, x.2.partof.length)))) =
      some [(exReqA, 0), (exImA, 1), (exImB, 0)] ∧
    (modifiedNow keptLibs exId exGood exS [.update exTypedB (exId exImB)] 1000).map (fun r => (editable r.1, r.2.1)) = some ([exReqA, exImA, exTypedB], .done) := by
  decide +kernel

/-- The project that is read has SPC-b. -/
theorem exSave_read : ∃ c p, ReadsProject keptLibs (fun _ => some exRaw) exId 4 exGood c!"/p" (.ok (c, p)) ∧
    ∃ x ∈ p.artifacts, x.2.toIm = exImB ∧ x.2.partof = [] := by
  have h1 := exSave_now.1
  have f := exGood_kept
  have hs := exGood_settings
  generalize exGood = g at h1 f hs ⊢
  have hr := exReadNow hs f.1 f.2
  cases hn : readNow keptLibs exId g exS with
  | ok r =>
    rw [hn] at h1 hr
    have h1 : r.2.artifacts.map (fun x => (x.2.toIm, x.2.partof.length)) = [(exReqA, 0), (exImA, 1), (exImB, 0)] := Option.some.inj h1
    have : (exImB, 0) ∈ r.2.artifacts.map (fun x => (x.2.toIm, x.2.partof.length)) := by rw [h1]; simp
    obtain ⟨x, hx, e⟩ := List.mem_map.1 this
    simp only [Prod.mk.injEq, List.length_eq_zero_iff] at e
    exact ⟨r.1, r.2, hr, x, hx, e⟩
  | err e => rw [hn] at h1; cases h1
  | panic => rw [hn] at h1; cases h1

theorem exSave_done : ∃ (r : ProjectResult) (fs' : FS), editable r.project = [exReqA, exImA, exTypedB] ∧
    Modifies keptLibs (fun _ => some exRaw) exId (fun _ => []) 4 exGood c!"/p" [.update exTypedB (exId exImB)] (some (.ok (r.lints, r.project))) fs' := by
  have h1 := exSave_now.2
  have f := exGood_kept
  have hs := exGood_settings
  generalize exGood = g at h1 f hs ⊢
  obtain ⟨⟨q, ph, fs'⟩, h2, h3⟩ := Option.map_eq_some_iff.1 h1
  simp only [Prod.mk.injEq] at h3
  obtain ⟨h3, rfl⟩ := h3
  obtain ⟨c, hm⟩ := modifiedNow_sound (ncpu := 4) hs f.1 f.2 h2
  exact ⟨⟨q, c⟩, fs', h3, hm⟩

/-- A history that meets the hypotheses of `C53_saved` and `C53_no_lost_update`: SPC-b gets the text "new". -/
example : ∃ s0 tr S e w' x r fs' P, Starts (exEnv keptLibs) exGood c!"/p/src" c!"/p" s0 ∧
    Runs (exEnv keptLibs) Web.exNd 1000 (Sys.init s0 [] (fun _ => .artifact x)) tr S ∧ (S.pages 0).ui.editing.get? 1 = some e ∧
    e.originalId = some (exId exImB) ∧ e.text = c!"new" ∧ Web.Step Web.exNd 1000 (S.pages 0) (.handled (.recvProject 2 P) []) w' ∧
    w'.ui.editing.get? 1 = none ∧ S.server.disk = fs' ∧ Shows P r ∧ editable r = [exReqA, exImA, exTypedB] := by
  obtain ⟨c, p, hr, x, hx, e1, e2⟩ := exSave_read
  obtain ⟨r, fs', h3, hm⟩ := exSave_done
  have hf := exGood_repo
  generalize exGood = g at hr hm hf ⊢
  have hid : x.2.id = exId exImB := by rw [← e1]; exact (read_neat hr).ids x hx
  have n1 : x.2.name = exImB.name := congrArg ArtifactIm.name e1
  have n2 : x.2.file = exImB.file := congrArg ArtifactIm.file e1
  have n3 : x.2.impl.doneStr = none := congrArg ArtifactIm.done e1
  have hop : (⟨x.2.name, x.2.file, x.2.partof, x.2.impl.doneStr, c!"new"⟩ : ArtifactIm) = exTypedB := by rw [n1, n2, n3, e2]; rfl
  obtain ⟨s0, tr, S, P, e, w', k1, k2, k3, k4, k5, k6, k7, k8, k9⟩ := C53_can_save (E := exEnv keptLibs) (x := x) (t := c!"new") (r := r) (fs' := fs') hf hr hx
    (by rw [n3]; nofun) (by rw [hop, hid]; exact hm)
  exact ⟨s0, tr, S, e, w', x.1, r.project, fs', P, k1, k2, k3, hid ▸ k4, k5, k6, k7, k8, k9, h3⟩

/-- A history that meets the hypotheses of `C53_reloaded`. -/
example : ∃ s0 tr S i a P, Starts (exEnv keptLibs) exGood c!"/p/src" c!"/p" s0 ∧ Runs (exEnv keptLibs) Web.exNd 1000 (Sys.init s0 [] (fun _ => .graph)) tr S ∧
    Ev.answer 0 (.read 1 true) i a (.recvProject 1 P) ∈ tr := by
  obtain ⟨c, p, hr, -⟩ := exSave_read
  have hf := exGood_repo
  generalize exGood = g at hr hf ⊢
  obtain ⟨s0, tr, S, i, a, P, h1, h2, h3, -⟩ := can_reload (E := exEnv keptLibs) hf hr
  exact ⟨s0, tr, S, i, a, P, h1, h2, h3⟩

/-- What the second page wants. -/
def exOtherB : ArtifactIm := { exImB with text := c!"other" }

/-- The disk after the first page saved. -/
def exSavedDisk : FS := ((modifiedNow keptLibs exId exGood exS [.update exTypedB (exId exImB)] 1000).map (fun r => r.2.2)).getD []

theorem exSavedDisk_settings : SettingsOf (fun _ => some exRaw) exSavedDisk c!"/p" exS := by
  refine ⟨exS.settingsPath, exRaw, ?_, rfl⟩
  have h1 : IMap.get? exSavedDisk c!"/p" = some .dir := by decide +kernel
  have h2 : IMap.get? exSavedDisk (c!"/p" ++ c!"/.art/settings.toml") = some (.file (.text [])) := by decide +kernel
  unfold loadSettingsRaw
  rw [h1]
  simp only [h2]
  rfl

theorem exSavedDisk_few : (walkCode exSavedDisk exS).countP (fun f => (codeSent keptLibs exSavedDisk f).dead) < 4 ∧
    (walkArtifacts exSavedDisk exS).countP (fun f => (artSent keptLibs exS.pre exSavedDisk f).dead) < 4 := by decide +kernel

theorem exSecond_now : ((readNow keptLibs exId exSavedDisk exS).toOption.map (fun r =>
    match planNow keptLibs exId (fun _ => []) r.1 r.2 [.update exOtherB (exId exImB)] with | .err e => some e.kind | _ => none)) = some (some .hashMismatch) := by
  decide +kernel

theorem exSecond : ∃ e : ModifyError, e.kind = .hashMismatch ∧
    Modifies keptLibs (fun _ => some exRaw) exId (fun _ => []) 4 exSavedDisk c!"/p" [.update exOtherB (exId exImB)] (some (.err e)) exSavedDisk := by
  have h1 := exSecond_now
  have f := exSavedDisk_few
  have hs := exSavedDisk_settings
  generalize exSavedDisk = g at h1 f hs ⊢
  have hr := exReadNow hs f.1 f.2
  obtain ⟨r, h2, h3⟩ := Option.map_eq_some_iff.1 h1
  have h2 : readNow keptLibs exId g exS = .ok r := by
    cases hn : readNow keptLibs exId g exS with
    | ok x => rw [hn] at h2; exact congrArg _ (Option.some.inj h2)
    | err => rw [hn] at h2; cases h2
    | panic => rw [hn] at h2; cases h2
  rw [h2] at hr
  have ht := C23_total keptLibs exId (fun _ => []) r.1 r.2 [.update exOtherB (exId exImB)]
  cases hp : planNow keptLibs exId (fun _ => []) r.1 r.2 [.update exOtherB (exId exImB)] with
  | err e =>
    rw [hp] at h3 ht
    exact ⟨e, Option.some.inj h3, .refused hr ht nofun⟩
  | ok => rw [hp] at h3; cases h3
  | panic => rw [hp] at h3; cases h3

theorem exFirst : ∃ (r : ProjectResult), editable r.project = [exReqA, exImA, exTypedB] ∧
    Modifies keptLibs (fun _ => some exRaw) exId (fun _ => []) 4 exGood c!"/p" [.update exTypedB (exId exImB)] (some (.ok (r.lints, r.project))) exSavedDisk := by
  have h1 := exSave_now.2
  have f := exGood_kept
  have hs := exGood_settings
  unfold exSavedDisk
  generalize exGood = g at h1 f hs ⊢
  obtain ⟨⟨q, ph, fs'⟩, h2, h3⟩ := Option.map_eq_some_iff.1 h1
  simp only [Prod.mk.injEq] at h3
  obtain ⟨h3, rfl⟩ := h3
  obtain ⟨c, hm⟩ := modifiedNow_sound (ncpu := 4) hs f.1 f.2 h2
  rw [h2]
  exact ⟨⟨q, c⟩, h3, hm⟩

theorem exOne_read (im : ArtifactIm) (h : ISet.Nodup im.partof) : Res.mapM' (WireOp.read false) [wireOp (.update im (exId exImB))] = .ok [.update im (exId exImB)] := by
  have : (wireOp (.update im (exId exImB))).read false = .ok (.update im (exId exImB)) := wireOp_read false fun a ha => by rw [brings_of_update.1 ha]; exact h
  simp only [Res.mapM', this]
  rfl

/-- Two requests to change the same artifact, handled one after the other. -/
theorem two_saves {E : Env} {fs fs' : FS} {v r : ProjectResult} {a b : List WireOp} {a' b' : List ArtifactOp} {e : ModifyError}
    (ha : Res.mapM' (WireOp.read E.strict) a = .ok a') (hb : Res.mapM' (WireOp.read E.strict) b = .ok b')
    (h1 : Modifies E.L E.readToml E.hash E.dbg E.ncpu fs v.project.settings.base a' (some (.ok (r.lints, r.project))) fs')
    (h2 : Modifies E.L E.readToml E.hash E.dbg E.ncpu fs' v.project.settings.base b' (some (.err e)) fs') :
    ∃ s t u u' hist, s.disk = fs ∧ s.value = v ∧ Art.Step E s (.finish 0 (.modify (some (some a))) (.success r)) t ∧ Art.Runs E t hist u ∧
      (∀ x ∈ hist, LeavesDisk x) ∧ Art.Step E u (.finish 1 (.modify (some (some b))) (.serverError e.kind e.lints)) u' := by
  have hbase : r.project.settings.base = v.project.settings.base := base_of_modify h1
  let s : Server := ⟨fs, v, false, some (.thread 0), fun i => if i = 0 then .working (.modify (some (some a))) else .idle, true⟩
  obtain ⟨t, st, d1, d2, d3, d4, d5, d6⟩ : ∃ t, Art.Step E s (.finish 0 (.modify (some (some a))) (.success r)) t ∧ t.disk = fs' ∧ t.value = r ∧ t.alive = true ∧ t.holder = none ∧
      t.poisoned = false ∧ t.threads 1 = .idle :=
    ⟨_, .work (i := 0) (r := .modify (some (some a))) (out := (.success r, r)) (fs' := fs') rfl rfl rfl (Handles.modify ha h1), rfl, rfl, rfl, rfl, rfl, by simp [Server.set, s]⟩
  have r1 : Art.Runs E t [] t := .nil
  have r2 := r1.snoc (.arrive (i := 1) (r := .modify (some (some b))) d3 d6)
  have r3 := r2.snoc (.lock (i := 1) (r := .modify (some (some b))) d3 (by simp [Server.set]) nofun d4 d5)
  refine ⟨s, t, _, _, _, rfl, rfl, st, r3, by simp [LeavesDisk], .work (out := (.serverError e.kind e.lints, r)) (fs' := fs') d3 (by simp [Server.set]) rfl ?_⟩
  show Handles E t.disk t.value _ _ _
  rw [d1, d2]
  exact Handles.modify (v := r) hb (by rw [hbase]; exact h2)

/-- A case that meets the hypotheses of `C53_second_refused`: the first request gives SPC-b the text "new", the second one asks for "other" and still names the old SPC-b. -/
example : ∃ (s t u u' : Server) (hist : List Art.Event) (w : ProjectResult) (kind : ModifyErrorKind) (lints : Categorized),
    FS.WF s.disk ∧ SettingsOf (exEnv keptLibs).readToml s.disk s.value.project.settings.base exS ∧ Safe s.disk exS ∧ Apart exS ∧ ReadOnce exS exTypedB.file ∧
    Art.Step (exEnv keptLibs) s (.finish 0 (.modify (some (some [wireOp (.update exTypedB (exId exImB))]))) (.success w)) t ∧ exId exTypedB.clean ≠ exId exImB ∧
    (∀ x ∈ editable w.project, Survives keptLibs exS x.file ((editable w.project).filter (fun y => decide (y.file = x.file)))) ∧
    Art.Runs (exEnv keptLibs) t hist u ∧ (∀ e ∈ hist, LeavesDisk e) ∧
    Art.Step (exEnv keptLibs) u (.finish 1 (.modify (some (some [wireOp (.update exOtherB (exId exImB))]))) (.serverError kind lints)) u' := by
  obtain ⟨c, p, hr, -⟩ := exSave_read
  obtain ⟨r, h1, hm⟩ := exFirst
  obtain ⟨e, -, hm2⟩ := exSecond
  obtain ⟨-, -, -, -, -, hap, -⟩ := exKept
  have hwf := exGood_wf
  have hs := exGood_settings
  have hsafe := exGood_safe
  generalize exGood = g at hr hm hwf hs hsafe
  generalize exSavedDisk = g' at hm hm2
  have hbase : p.settings.base = c!"/p" := base_of_read (E := exEnv keptLibs) hr
  obtain ⟨s, t, u, u', hist, k1, k2, k3, k4, k5, k6⟩ := two_saves (E := exEnv keptLibs) (v := ⟨p, c⟩) (exOne_read exTypedB .nil) (exOne_read exOtherB .nil)
    (by rw [hbase]; exact hm) (by rw [hbase]; exact hm2)
  refine ⟨s, t, u, u', hist, r, _, _, by rw [k1]; exact hwf, by rw [k1, k2, hbase]; exact hs, by rw [k1]; exact hsafe, hap, ?_, k3, by decide, ?_, k4, k5, k6⟩
  · refine ⟨[], c!"/p/design", [], rfl, ⟨by rw [← startsWith_iff]; decide, nofun⟩, nofun⟩
  · rw [h1]
    have hset : SettingsOk exS.pre exS.mdAttrs := ⟨by decide, by rintro p ⟨⟩⟩
    have hno : ∀ a ∈ [exReqA, exImA, exTypedB], (a.text ≠ [] → TextOk keptLibs.fold exS.pre a.text) ∧ YamlOk keptLibs (intoRaw a).2.2 := by
      intro a ha
      simp only [List.mem_cons, List.not_mem_nil, or_false] at ha
      rcases ha with rfl | rfl | rfl <;>
        exact ⟨fun _ => textOk_of (by decide) (by decide) (by decide) (by decide), ⟨nofun, nofun, nofun, nofun, fun h => absurd rfl h⟩⟩
    have hall : ∀ a ∈ [exReqA, exImA, exTypedB], ArtFileType.fromPath a.file = some .md := by decide
    intro a ha
    unfold Survives
    rw [hall a ha]
    exact ⟨hset, fun b hb => hno b (List.mem_filter.1 hb).1⟩

/-- An artifact that is done with an empty text, and what saving its form unchanged sends: it is not done any more. -/
example (a : Artifact) (h : a.impl.doneStr = some []) (hp : a.partof = []) : (Web.Edit.fromArtifact (look a)).toIm = .ok ⟨a.name, a.file, [], none, a.text⟩ := by
  have h1 : Res.mapM' Web.nameBang (Web.Edit.fromArtifact (look a)).partof = .ok [] := by
    show Res.mapM' Web.nameBang (a.partof.map Name.raw) = _
    rw [hp]
    rfl
  have h2 : Web.nameBang (Web.Edit.fromArtifact (look a)).name = .ok a.name := Web.nameBang_ok.2 rfl
  have h3 : (Web.Edit.fromArtifact (look a)).done = [] := by
    show a.impl.doneStr.getD [] = []
    rw [h]
    rfl
  unfold Web.Edit.toIm
  rw [h1, h2, h3]
  rfl

end Whole
end Art
