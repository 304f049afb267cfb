import Verif.Lemmas.ExportDoc
import Verif.Props.Check
import Verif.Props.SaveEx

/-! C55: what is shown for the text of an artifact, the exported document, and the command that writes it. -/

namespace Art
open Spec Spec.Export Spec.Dot

/-! ## the pieces of a text -/

/-- C55. There is exactly one way to cut a text into pieces, and nothing is lost by it. -/
theorem C55_cut (text : Str) : (∃! ps, Cut true text ps) ∧ ∀ ps, Cut true text ps → ps.flatMap Piece.src = text := by
  obtain ⟨ps, h⟩ := cut_exists true text
  exact ⟨⟨ps, h, fun qs hq => cut_unique hq h⟩, fun qs hq => cut_src hq⟩

/-- C55. The references and subnames among the pieces of a text and of its graphs are exactly those that the checks find in the text. -/
theorem C55_found (text : Str) :
    (∀ n sub, Within text (.ref n sub) ↔ WritesRef text n (sub.map SubName.mk)) ∧
    ∀ s, Within text (.sub s) ↔ SubLike s ∧ ∃ pre post, text = pre ++ c!"[[" ++ s ++ c!"]]" ++ post :=
  ⟨within_ref text, within_sub text⟩

/-- A graph without lines does not end at its closing fence: the text after it, up to the next fence, is taken for the graph, and its references become nodes. -/
theorem C55_empty_graph : Cut true c!"```dot\n```\nsee [[SPC-a]]\n```" [.graph c!"```dot" c!"```\nsee [[SPC-a]]\n"] := by
  cases hr : replHere true c!"```dot\n```\nsee [[SPC-a]]\n```" with
  | none =>
    have : (replHere true c!"```dot\n```\nsee [[SPC-a]]\n```").isSome = true := by decide +kernel
    rw [hr] at this; cases this
  | some m =>
    obtain ⟨x, ho, hf⟩ := replHere_some hr
    have e : (replHere true c!"```dot\n```\nsee [[SPC-a]]\n```").map (fun m => match m with
        | .dot m => (Caps.get m.2.2 1, Caps.get m.2.2 2, m.2.1)
        | _ => (none, none, [])) = some (some c!"```dot", some c!"```\nsee [[SPC-a]]\n", []) := by decide +kernel
    rw [hr] at e
    cases m with
    | sub m => simp at e
    | ref m => simp at e
    | dot m =>
      simp only [Option.map_some, Option.some.injEq, Prod.mk.injEq] at e
      cases x with
      | plain => cases ho
      | sub => cases ho
      | ref => cases ho
      | graph head body =>
        obtain ⟨rest, rfl⟩ := ho
        have h1 : some head = some _ := e.1
        have h2 : some body = some _ := e.2.1
        cases h1; cases h2
        refine Spec.Export.Cut.first hf ?_
        rw [show (ReplMatch.dot (dotMatch _ _ rest)).rest = [] from e.2.2]
        exact .nil

/-- A text as in `C55_cut` and `C55_found`: the pieces are found wherever they are. -/
example : Within c!"```dot\n```\nsee [[SPC-a]]\n```" (.ref c!"SPC-a" none) :=
  (within_tok (x := .ref c!"SPC-a" none) ⟨nameLike_iff.2 ((Re.isFull_iff _ _).1 (by decide +kernel)), by simp⟩ (by simp) (by simp) _).2 ⟨c!"```dot\n```\nsee ", c!"\n```", by decide⟩

/-! ## what is shown for them -/

variable {L : Libs} {readToml : Str → Option SettingsRaw} {hash : ArtifactIm → HashIm} {ncpu : Nat} {fs : FS} {base : FilePath} {c : Categorized} {p : Project}
  {F : ExportLibs} {md : SerMd}

/-- C55. The text that is shown is made of what is to be shown for each piece, in the same order. -/
theorem C55_text (h : ReadsProject L readToml hash ncpu fs base (.ok (c, md.project))) {parent text out : Str} (ho : md.replace F parent text = .ok out) :
    ∃ ps os, Cut true text ps ∧ List.Forall₂ (PieceShown F md parent) ps os ∧ out = os.flatten := by
  obtain ⟨ps, hc, ⟨os, e, hf, _⟩ | ⟨e, _⟩⟩ := replace_text (F := F) (read_readable h) parent text
  · rw [ho] at e; cases e
    exact ⟨ps, os, hc, hf, rfl⟩
  · rw [ho] at e; cases e

/-- C55. Showing a text either works or crashes; it crashes exactly if there is a name that crashes the reading of names or a place in the code without an address. -/
theorem C55_crash (h : ReadsProject L readToml hash ncpu fs base (.ok (c, md.project))) (parent text : Str) :
    (md.replace F parent text = .panic ↔ ∃ ps, Cut true text ps ∧ ∃ x ∈ ps, Bad F md parent x) ∧ ∀ e, md.replace F parent text ≠ .err e := by
  obtain ⟨ps, hc, ⟨os, e, hf, hb⟩ | ⟨e, x, hx, hb⟩⟩ := replace_text (F := F) (read_readable h) parent text
  · rw [e]
    refine ⟨⟨nofun, fun ⟨qs, hq, x, hx, hb'⟩ => ?_⟩, nofun⟩
    rw [cut_unique hq hc] at hx
    exact absurd hb' (hb x hx)
  · rw [e]
    exact ⟨⟨fun _ => ⟨ps, hc, x, hx, hb⟩, fun _ => rfl⟩, nofun⟩

/-- A reference can be typed that crashes the page: its first letter counts as an `S` for the search in the text but not for the reading of names. -/
theorem C55_typed_crash (F : ExportLibs) (md : SerMd) (parent : Str) : md.replace F parent c!"[[ſPC-a]]" = .panic := by
  have hf : Name.fromStr c!"ſPC-a" = .panic := by decide +kernel
  have hn : NameLike c!"ſPC-a" := fun e h => by rw [hf] at h; cases h
  obtain ⟨m, e, h1, h2⟩ := replHere_first (First.ref (bol := true) (n := c!"ſPC-a") (s := none) (rest := []) hn (by simp))
  unfold SerMd.replace
  show replaceAll _ 9 true _ = _
  rw [replaceAll]
  have e' : replHere true c!"[[ſPC-a]]" = some m := e
  rw [e']
  cases m with
  | sub m => cases h1
  | dot m => cases h1
  | ref m =>
    rcases refOf_eq hn (sub := none) (by simp) h1.1 h1.2 with ⟨name, hs, _⟩ | ⟨_, hp⟩
    · rw [hf] at hs; cases hs
    · show ((refOf m).bind _).bind _ = _
      rw [hp]; rfl

/-- The reference is a link exactly if what it refers to exists. -/
theorem refShown_target {n : Str} {sub : Option Str} {html : Str} (h : RefShown p n sub html) :
    ∃ name, Name.fromStr n = .ok name ∧ (target html = none ↔ NoTarget (arts p) name (sub.map SubName.mk)) ∧ ∀ t, target html = some t → t = upper n := by
  obtain ⟨name, hn, h1, h2⟩ := h
  refine ⟨name, hn, ⟨fun h => ?_, fun h => (h2 h).1⟩, fun t ht => ?_⟩
  · by_contra hc
    rw [(h1 hc).1] at h; cases h
  · by_cases hc : NoTarget (arts p) name (sub.map SubName.mk)
    · rw [(h2 hc).1] at ht; cases ht
    · rw [(h1 hc).1] at ht; exact (Option.some.inj ht).symm

/-- A project is read without reports about its files. -/
theorem read_no_lints {s : Settings} {r : Run} (h : Arrives L ncpu fs s r) (he : r.categorized.error = []) : r.lints = [] := by
  obtain ⟨h1, h2, h3⟩ := (noError_parts h).1 he
  rw [List.eq_nil_iff_forall_not_mem]
  intro d hd
  rcases (mem_lints h d).1 hd with hd | hd | hd
  · refine h1 d hd ?_
    unfold fileLints at hd
    simp only [List.mem_append, List.mem_flatMap] at hd
    have w : ∀ {f roots}, d ∈ walkLints L fs f roots → d.level = .error := by
      intro f roots hd
      obtain ⟨r, _, e⟩ := List.mem_filterMap.1 hd
      split at e
      · cases e; rfl
      · cases e
    rcases hd with ((hd | ⟨f, _, hd⟩) | hd) | ⟨f, _, hd⟩
    · exact w hd
    · unfold codeSent at hd
      split at hd
      · simp at hd
      · simp only at hd
        split at hd
        · simp at hd
        · rw [List.mem_singleton.1 hd]; rfl
      · rw [List.mem_singleton.1 hd]; rfl
    · exact w hd
    · unfold artSent at hd
      split at hd
      · split at hd
        · rename_i ims lints e
          unfold loadFile at e
          split at e
          · cases e
          · split at e
            · cases e; rw [List.mem_singleton.1 hd]; rfl
            · split at e
              · cases e; simp at hd
              · cases e; rw [List.mem_singleton.1 hd]; rfl
              · cases e
        · simp at hd
      · rw [List.mem_singleton.1 hd]; rfl
  · rw [h2] at hd; simp at hd
  · rw [h3] at hd; simp at hd

theorem noTarget_sort {s : Settings} {code : IMap Name ImplCode} {as : IMap Name Artifact} (n : Name) (sub : Option SubName) :
    NoTarget (arts (Project.sort ⟨s, code, as⟩)) n sub ↔ NoTarget (artsOf as) n sub := by
  have up : ∀ {b}, b ∈ artsOf as → b.sort ∈ arts (Project.sort ⟨s, code, as⟩) := by
    intro b hb
    obtain ⟨x, hx, rfl⟩ := List.mem_map.1 hb
    exact List.mem_map.2 ⟨(x.1, x.2.sort), List.mem_map.2 ⟨x, (mem_sortOn _).2 hx, rfl⟩, rfl⟩
  have down : ∀ {a}, a ∈ arts (Project.sort ⟨s, code, as⟩) → ∃ b ∈ artsOf as, a = b.sort := by
    intro a ha
    obtain ⟨x, hx, rfl⟩ := List.mem_map.1 ha
    obtain ⟨y, hy, rfl⟩ := List.mem_map.1 hx
    exact ⟨y.2, List.mem_map.2 ⟨y, (mem_sortOn _).1 hy, rfl⟩, rfl⟩
  constructor
  · rintro (h | ⟨a, ha, hk, t, e, hd⟩)
    · exact Or.inl fun b hb => h b.sort (up hb)
    · obtain ⟨b, hb, rfl⟩ := down ha
      exact Or.inr ⟨b, hb, hk, t, e, hd⟩
  · rintro (h | ⟨a, ha, hk, t, e, hd⟩)
    · refine Or.inl fun a ha => ?_
      obtain ⟨b, hb, rfl⟩ := down ha
      exact h b hb
    · exact Or.inr ⟨_, up ha, hk, t, e, hd⟩

/-- C55. The checks warn about exactly those references that are shown as not found: those in the texts, and in the graphs in them, for which there is no artifact or no
such subname. -/
theorem C55_warned (h : ReadsProject L readToml hash ncpu fs base (.ok (c, p))) (l : Lint) :
    (l ∈ c.other ∧ l.level = .warn ∧ l.category = .artifact) ↔
    ∃ a ∈ arts p, ∃ (n : Str) (sub : Option Str) (name : Name), Within a.text (.ref n sub) ∧ Name.fromStr n = .ok name ∧ NoTarget (arts p) name (sub.map SubName.mk) ∧
      l = ⟨.warn, some a.file, none, .artifact, a.name.raw ++ c!" has soft reference [[" ++ n ++ sub.getD [] ++ c!"]] which does not exist."⟩ := by
  obtain ⟨_, _, s, r, as, ls, _, _, ha, he, hl, hlint, rfl, rfl⟩ := reads_parts h
  have h0 := read_no_lints ha he
  have hc : l ∈ ((r.categorized.categorize ls).sort).other ↔ l ∈ ls ∧ l.level ≠ .error := by
    unfold Run.categorized
    rw [h0]
    exact (C32_exact ls).2.1 l
  have hw := C40_warned (joinArtifacts_input r.arts) hl hlint l
  constructor
  · rintro ⟨h1, h2, h3⟩
    obtain ⟨a, haa, n, sub, hr, ht, e⟩ := hw.1 ⟨(hc.1 h1).1, h2, h3⟩
    obtain ⟨x, hx, rfl⟩ := List.mem_map.1 haa
    have es : (sub.map SubName.raw).map SubName.mk = sub := by cases sub <;> rfl
    refine ⟨x.2.sort, List.mem_map.2 ⟨(x.1, x.2.sort), List.mem_map.2 ⟨x, (mem_sortOn _).2 hx, rfl⟩, rfl⟩, n.raw, sub.map SubName.raw, n, ?_, n.fromStr_raw_self, ?_, ?_⟩
    · rw [within_ref, es]; exact hr
    · rw [es, noTarget_sort]; exact ht
    · rw [e]
      cases sub <;> simp [Name.full, Artifact.sort]
  · rintro ⟨a, haa, n, sub, name, hr, hn, ht, e⟩
    obtain ⟨x, hx, rfl⟩ := List.mem_map.1 haa
    obtain ⟨y, hy, rfl⟩ := List.mem_map.1 hx
    have hraw := Name.raw_of_fromStr hn
    obtain ⟨h1, h2, h3⟩ := hw.2 ⟨y.2, List.mem_map.2 ⟨y, (mem_sortOn _).1 hy, rfl⟩, name, sub.map SubName.mk, by rw [hraw]; exact (within_ref _ _ _).1 hr, (noTarget_sort _ _).1 ht, by
      rw [e]
      cases sub <;> simp [Name.full, Artifact.sort, hraw]⟩
    exact ⟨hc.2 ⟨h1, by rw [h2]; decide⟩, h2, h3⟩

/-! ## the document -/

/-- How a project is exported with these settings. -/
def exporter (ex : ExportSettings) (p : Project) : SerMd := ⟨p, p.settings.codeUrl, ex.family, ex.dot, ex.namePrefix⟩

/-- C55. The document has a header, a table of contents and one section for each artifact; it can be made exactly if all places in it have an address. -/
theorem C55_document (h : ReadsProject L readToml hash ncpu fs base (.ok (c, p))) (ex : ExportSettings) :
    ((exportParts F ex p).all Res.isOk = true ↔ ∀ loc, Addressed p loc → ¬ NoAddress F (exporter ex p) loc) ∧
    ((∀ loc, Addressed p loc → ¬ NoAddress F (exporter ex p) loc) → DocShown F (exporter ex p) ex.header ex.toc (written (exportParts F ex p))) := by
  obtain ⟨h1, h2⟩ := (doc_shown (F := F) (md := exporter ex p) h ex.header ex.toc).written
  have e : (¬ ∃ loc, Addressed p loc ∧ NoAddress F (exporter ex p) loc) ↔ ∀ loc, Addressed p loc → ¬ NoAddress F (exporter ex p) loc := by
    simp only [not_exists, not_and]
  exact ⟨h1.trans e, fun h => h2 (e.2 h)⟩

/-- C55. When the document cannot be made, what is written ends within the section of some artifact: its header, its table of contents and the sections before that one are
complete. -/
theorem C55_cut_short (h : ReadsProject L readToml hash ncpu fs base (.ok (c, p))) (ex : ExportSettings) (hb : ∃ loc, Addressed p loc ∧ NoAddress F (exporter ex p) loc) :
    ∃ contents sections k rest, k < (arts p).length ∧ (if ex.toc then ContentsShown (exporter ex p) contents else contents = []) ∧
      List.Forall₂ (SectionShown F (exporter ex p)) ((arts p).take k) sections ∧
      (∃ a, (arts p)[k]? = some a ∧ ∃ loc, AddressedIn p a loc ∧ NoAddress F (exporter ex p) loc) ∧
      written (exportParts F ex p) = (ex.header.map (· ++ c!"\n")).getD [] ++ contents ++ sections.flatten ++ rest := by
  have hsec : ∀ l : List (Name × Artifact), (∀ x ∈ l, x ∈ p.artifacts) → (∃ x ∈ l, ∃ loc, AddressedIn p x.2 loc ∧ NoAddress F (exporter ex p) loc) →
      ∃ sections k rest, k < (l.map Prod.snd).length ∧ List.Forall₂ (SectionShown F (exporter ex p)) ((l.map Prod.snd).take k) sections ∧
        (∃ a, (l.map Prod.snd)[k]? = some a ∧ ∃ loc, AddressedIn p a loc ∧ NoAddress F (exporter ex p) loc) ∧
        written (l.flatMap fun x => (exporter ex p).artMd F x.2) = sections.flatten ++ rest := by
    intro l hl
    induction l with
    | nil => rintro ⟨x, hx, _⟩; cases hx
    | cons x l ih =>
      rintro ⟨y, hy, hbad⟩
      rcases section_shown (F := F) (md := exporter ex p) h (hl x (by simp)) with ⟨os, e, hs, hn⟩ | ⟨_, hx⟩
      · have hy' : y ∈ l := by
          rcases List.mem_cons.1 hy with rfl | hy
          · exact absurd hbad hn
          · exact hy
        obtain ⟨ss, k, rest, hk, h1, h2, h3⟩ := ih (fun z hz => hl z (by simp [hz])) ⟨y, hy', hbad⟩
        refine ⟨os.flatten :: ss, k + 1, rest, by simpa using hk, .cons hs h1, h2, ?_⟩
        rw [List.flatMap_cons, e, written_ok, h3]
        simp
      · exact ⟨[], 0, _, by simp, .nil, ⟨x.2, rfl, hx⟩, rfl⟩
  obtain ⟨loc, ⟨a, ha, h1⟩, h2⟩ := hb
  obtain ⟨x, hx, rfl⟩ := List.mem_map.1 ha
  obtain ⟨ss, k, rest, hk, hf, hbad, e⟩ := hsec p.artifacts (fun _ h => h) ⟨x, hx, loc, h1, h2⟩
  have hcont : ∃ cs : List Str, (if ex.toc then (exporter ex p).tocMd else []) = cs.map .ok ∧ if ex.toc then ContentsShown (exporter ex p) cs.flatten else cs.flatten = [] := by
    cases ex.toc with
    | true =>
      rcases contents_shown (md := exporter ex p) (read_readable h) with ⟨os, e, hs, _⟩ | ⟨_, hb⟩
      · exact ⟨os, e, hs⟩
      · exact absurd hb id
    | false => exact ⟨[], rfl, rfl⟩
  obtain ⟨cs, ec, hcs⟩ := hcont
  refine ⟨cs.flatten, ss, k, rest, hk, hcs, hf, hbad, ?_⟩
  show written (_ ++ (if ex.toc then (exporter ex p).tocMd else []) ++ p.artifacts.flatMap fun x => (exporter ex p).artMd F x.2) = _
  rw [ec]
  cases ex.header with
  | none =>
    rw [List.nil_append, written_ok, e]; simp
  | some hd =>
    rw [List.append_assoc]
    show written (.ok (hd ++ c!"\n") :: ([] ++ _)) = _
    rw [List.nil_append, written, written_ok, e]; simp

/-- The checks report an error in the settings exactly if the pattern for addresses is refused. -/
theorem url_linted (h : ReadsProject L readToml hash ncpu fs base (.ok (c, p))) :
    (∃ l ∈ c.error, l.category = .settings) ↔ ∃ fmt, p.settings.codeUrl = some fmt ∧ L.urlErr fmt ≠ none := by
  obtain ⟨_, _, s, r, as, ls, _, _, ha, he, hl, hlint, rfl, rfl⟩ := reads_parts h
  have h0 := read_no_lints ha he
  have hc : ∀ l, l ∈ ((r.categorized.categorize ls).sort).error ↔ l ∈ ls ∧ l.level = .error := by
    unfold Run.categorized
    rw [h0]
    exact (C32_exact ls).1
  obtain ⟨refs, hr, els⟩ := lint_ok.1 hlint
  show _ ↔ ∃ fmt, s.codeUrl = some fmt ∧ L.urlErr fmt ≠ none
  constructor
  · rintro ⟨l, hm, hcat⟩
    have hm := ((hc l).1 hm).1
    rw [els, List.mem_append, List.mem_append, List.mem_append] at hm
    rcases hm with hm | (hm | hm) | hm
    · rw [(lintErrors_shape l hm).2] at hcat; cases hcat
    · obtain ⟨x, _, m, _, k, e, hlk⟩ := (lintTextRefs_mem hr l).1 hm
      rw [(refLintOf_shape e l hlk).2] at hcat; cases hcat
    · obtain ⟨x, _, hl⟩ := List.mem_flatMap.1 hm
      rw [(codeLintStep_shape l hl).2] at hcat; cases hcat
    · unfold lintSettings at hm
      split at hm
      · cases hm
      · rename_i fmt hf
        split at hm
        · cases hm
        · rename_i e hu
          exact ⟨fmt, hf, by rw [hu]; simp⟩
  · rintro ⟨fmt, hf, hu⟩
    cases hue : L.urlErr fmt with
    | none => exact absurd hue hu
    | some e =>
      have hm : (⟨.error, some s.settingsPath, none, .settings, e⟩ : Lint) ∈ lintSettings L ⟨s, (joinLocations r.locs).1, as⟩ := by
        unfold lintSettings
        simp only [hf, hue, List.mem_singleton]
      exact ⟨_, (hc _).2 ⟨by rw [els]; simp only [List.mem_append]; exact Or.inr (Or.inr hm), rfl⟩, rfl⟩

/-- C55. If the library treats an address pattern alike for all places, then the export of a project with artifacts crashes exactly if the checks report an error in the
settings. -/
theorem C55_bad_url (h : ReadsProject L readToml hash ncpu fs base (.ok (c, p))) (ex : ExportSettings) (hF : ∀ fmt f l, F.strfmt fmt f l = none ↔ L.urlErr fmt ≠ none)
    (hne : p.artifacts ≠ []) :
    (exportParts F ex p).all Res.isOk = false ↔ ∃ l ∈ c.error, l.category = .settings := by
  rw [← Bool.not_eq_true, (C55_document h ex).1, url_linted h]
  constructor
  · intro hn
    push Not at hn
    obtain ⟨loc, _, fmt, hf, hs⟩ := hn
    exact ⟨fmt, hf, (hF _ _ _).1 hs⟩
  · rintro ⟨fmt, hf, hu⟩ hall
    cases hart : p.artifacts with
    | nil => exact hne hart
    | cons x xs =>
      exact hall ⟨x.2.file, 0⟩ ⟨x.2, List.mem_map.2 ⟨x, by rw [hart]; simp, rfl⟩, Or.inl rfl⟩ ⟨fmt, hf, (hF _ _ _).2 hu⟩

/-! ## the command -/

/-- A file can be opened for writing: it exists, or the directory it is in. -/
def Creatable (fs : FS) (p : FilePath) : Prop :=
  (∃ x, IMap.get? fs p = some (.file x)) ∨ (IMap.get? fs p = none ∧ IMap.get? fs (parentDir p) = some .dir)

theorem createFile_spec (fs : FS) (p : FilePath) :
    (Creatable fs p ∧ ∃ fs', createFile fs p = some fs' ∧ ∀ q, q ≠ p → IMap.get? fs' q = IMap.get? fs q) ∨ (¬ Creatable fs p ∧ createFile fs p = none) := by
  unfold createFile Creatable Act.apply
  cases hg : IMap.get? fs p with
  | none =>
    by_cases hd : IMap.get? fs (parentDir p) = some .dir
    · refine Or.inl ⟨Or.inr ⟨rfl, hd⟩, _, by simp only [hg, hd, if_true, Option.bind_some, get?_put]; rfl, fun q hq => ?_⟩
      rw [get?_put, if_neg (Ne.symm hq), get?_put, if_neg (Ne.symm hq)]
    · exact Or.inr ⟨by simp [hd], by simp only [hg, hd, if_false, Option.bind_none]⟩
  | some n =>
    cases n with
    | dir => exact Or.inr ⟨by simp, by simp only [hg, Option.bind_none]⟩
    | file x =>
      refine Or.inl ⟨Or.inl ⟨x, rfl⟩, _, by simp only [Option.bind_some, hg]; rfl, fun q hq => ?_⟩
      rw [get?_put, if_neg (Ne.symm hq)]

variable {html : Project → FS → Nat → FS → Prop} {ex : ExportSettings} {dir : FilePath} {cmd : ExportCmd} {status : Nat} {fs' : FS}

theorem exports_cases (hx : Exports L F html readToml ex hash ncpu fs dir cmd status fs') (ht : lower cmd.ty ≠ c!"html") :
    (status = 1 ∧ fs' = fs) ∨
    (∃ repo, findRepo fs dir = some repo ∧ ReadsProject L readToml hash ncpu fs repo .panic ∧ status = 101 ∧ fs' = fs) ∨
    (∃ repo c p, findRepo fs dir = some repo ∧ ReadsProject L readToml hash ncpu fs repo (.ok (c, p)) ∧ lower cmd.ty = c!"md" ∧ Creatable fs cmd.dest ∧
      status = (if (exportParts F ex p).all Res.isOk then 0 else 101) ∧
      IMap.get? fs' cmd.dest = some (.file (.text (written (exportParts F ex p)))) ∧ ∀ q, q ≠ cmd.dest → IMap.get? fs' q = IMap.get? fs q) := by
  unfold Exports at hx
  split at hx
  · exact Or.inl hx
  · rename_i repo hr
    obtain ⟨out, hro, hx⟩ := hx
    split at hx
    · exact Or.inl hx
    · exact Or.inr (Or.inl ⟨repo, hr, hro, hx⟩)
    · rename_i c p
      rw [if_neg ht] at hx
      split at hx
      · rename_i hm
        unfold exportMarkdown at hx
        rcases createFile_spec fs cmd.dest with ⟨hc, fs1, e, hq⟩ | ⟨_, e⟩
        · rw [e] at hx
          simp only [Prod.mk.injEq] at hx
          refine Or.inr (Or.inr ⟨repo, c, p, hr, hro, hm, hc, hx.1, ?_, fun q hqq => ?_⟩)
          · rw [hx.2, get?_put, if_pos rfl]
          · rw [hx.2, get?_put, if_neg (Ne.symm hqq), hq q hqq]
        · rw [e] at hx
          simp only [Prod.mk.injEq] at hx
          exact Or.inl hx
      · exact Or.inl hx

/-- C55. The command changes no other file than the one it was asked to write, whatever happens, and does not change anything when it fails with an error. -/
theorem C55_only_dest (hx : Exports L F html readToml ex hash ncpu fs dir cmd status fs') (ht : lower cmd.ty ≠ c!"html") :
    (∀ q, q ≠ cmd.dest → IMap.get? fs' q = IMap.get? fs q) ∧ (status = 1 → fs' = fs) ∧ (status = 0 ∨ status = 1 ∨ status = 101) := by
  rcases exports_cases hx ht with ⟨rfl, rfl⟩ | ⟨_, _, _, rfl, rfl⟩ | ⟨_, _, _, _, _, _, _, rfl, _, hq⟩
  · exact ⟨fun _ _ => rfl, fun _ => rfl, Or.inr (Or.inl rfl)⟩
  · exact ⟨fun _ _ => rfl, fun _ => rfl, Or.inr (Or.inr rfl)⟩
  · refine ⟨hq, ?_, ?_⟩
    · split <;> simp
    · split <;> simp

/-- C55. When the command succeeds the file is the document for the project that was read. -/
theorem C55_exported (hx : Exports L F html readToml ex hash ncpu fs dir cmd 0 fs') (ht : lower cmd.ty ≠ c!"html") :
    lower cmd.ty = c!"md" ∧ ∃ repo c p text, findRepo fs dir = some repo ∧ ReadsProject L readToml hash ncpu fs repo (.ok (c, p)) ∧
      IMap.get? fs' cmd.dest = some (.file (.text text)) ∧ DocShown F (exporter ex p) ex.header ex.toc text := by
  rcases exports_cases hx ht with ⟨h, _⟩ | ⟨_, _, _, h, _⟩ | ⟨repo, c, p, hr, hro, hm, _, hs, hg, _⟩
  · cases h
  · cases h
  · refine ⟨hm, repo, c, p, _, hr, hro, hg, (C55_document hro ex).2 ((C55_document hro ex).1.1 ?_)⟩
    by_contra hn
    rw [if_neg hn] at hs; cases hs

/-- C55. The command can succeed exactly if it is asked for this format, the project can be read, the file can be written, and all places have addresses. -/
theorem C55_succeeds_iff (ht : lower cmd.ty ≠ c!"html") :
    (∃ fs', Exports L F html readToml ex hash ncpu fs dir cmd 0 fs') ↔
    lower cmd.ty = c!"md" ∧ Creatable fs cmd.dest ∧ ∃ repo c p, findRepo fs dir = some repo ∧ ReadsProject L readToml hash ncpu fs repo (.ok (c, p)) ∧
      ∀ loc, Addressed p loc → ¬ NoAddress F (exporter ex p) loc := by
  constructor
  · rintro ⟨fs', hx⟩
    rcases exports_cases hx ht with ⟨h, _⟩ | ⟨_, _, _, h, _⟩ | ⟨repo, c, p, hr, hro, hm, hc, hs, hg, _⟩
    · cases h
    · cases h
    · refine ⟨hm, hc, repo, c, p, hr, hro, (C55_document hro ex).1.1 ?_⟩
      by_contra hn
      rw [if_neg hn] at hs; cases hs
  · rintro ⟨hm, hc, repo, c, p, hr, hro, hall⟩
    rcases createFile_spec fs cmd.dest with ⟨_, fs1, e, _⟩ | ⟨hn, _⟩
    · refine ⟨IMap.insert fs1 cmd.dest (.file (.text (written (exportParts F ex p)))), ?_⟩
      unfold Exports
      rw [hr]
      refine ⟨_, hro, ?_⟩
      show if lower cmd.ty = _ then _ else _
      rw [if_neg ht, if_pos hm]
      simp only [exportMarkdown, e, (C55_document hro ex).1.2 hall, if_true]
    · exact absurd hc hn

/-- C55. When the command crashes, either reading the project does and nothing is changed, or the file has been overwritten with the beginning of the document. -/
theorem C55_crashed (hx : Exports L F html readToml ex hash ncpu fs dir cmd 101 fs') (ht : lower cmd.ty ≠ c!"html") :
    (∃ repo, findRepo fs dir = some repo ∧ ReadsProject L readToml hash ncpu fs repo .panic ∧ fs' = fs) ∨
    ∃ repo c p, findRepo fs dir = some repo ∧ ReadsProject L readToml hash ncpu fs repo (.ok (c, p)) ∧
      (∃ loc, Addressed p loc ∧ NoAddress F (exporter ex p) loc) ∧
      IMap.get? fs' cmd.dest = some (.file (.text (written (exportParts F ex p)))) := by
  rcases exports_cases hx ht with ⟨h, _⟩ | ⟨repo, hr, hro, _, e⟩ | ⟨repo, c, p, hr, hro, hm, _, hs, hg, _⟩
  · cases h
  · exact Or.inl ⟨repo, hr, hro, e⟩
  · refine Or.inr ⟨repo, c, p, hr, hro, ?_, hg⟩
    by_contra hn
    push Not at hn
    rw [if_pos ((C55_document hro ex).1.2 hn)] at hs; cases hs

/-! ## an example -/

/-- Libraries for the example. -/
def exF : ExportLibs := ⟨fun fmt f l => if fmt = c!"bad{" then none else some (fmt ++ f ++ c!"#L" ++ l), fun _ => c!"..%"⟩

/-- Settings for the example. -/
def exX : ExportSettings := ⟨none, true, .list, .ignore, []⟩

/-- A project with references and subnames, some of which do not exist, in texts and in a graph. -/
def exDocFs : FS := exFs c!"# REQ-a\nsee [[SPC-A.X]] and [[SPC-gone]]\n# SPC-a\nhow [[.x]] [[.y]]\n```dot\n[[REQ-a]] -> [[.y]]\n```\n" c!"" c!"// #SPC-a\n// #SPC-a.x" c!""

/-- Settings files for the example. -/
def exUrlRaw (url : Option Str) : SettingsRaw := ⟨[c!"design"], [], [c!"src"], [], url, .default, .hashes⟩

/-- The settings they give. -/
def exUrlS (url : Option Str) : Settings := { exS with codeUrl := url }

/-- Checks of address patterns for the example. -/
def urlLibs : Libs := { exLibs with urlErr := fun fmt => if fmt = c!"bad{" then some c!"invalid" else none }

/-- What reading the project of the example gives. -/
def exDoc (url : Option Str) : Res Categorized (Categorized × Project) := readNow urlLibs exId exDocFs (exUrlS url)

theorem exDoc_reads (url : Option Str) : ReadsProject urlLibs (fun _ => some (exUrlRaw url)) exId 4 exDocFs c!"/p" (exDoc url) := by
  have f : (walkCode exDocFs exS).countP (fun f => (codeSent urlLibs exDocFs f).dead) < 4 ∧
    (walkArtifacts exDocFs exS).countP (fun f => (artSent urlLibs exS.pre exDocFs f).dead) < 4 := by decide +kernel
  have hs : SettingsOf (fun _ => some (exUrlRaw url)) exDocFs c!"/p" (exUrlS url) := ⟨exS.settingsPath, exUrlRaw url, rfl, rfl⟩
  unfold exDoc
  generalize exDocFs = g at f hs
  exact readNow_reads hs f.1 f.2

/-- What is written for the project of the example. -/
def exDocText (url : Option Str) : Option (Bool × Str) := (exDoc url).toOption.map fun r => ((exportParts exF exX r.2).all Res.isOk, written (exportParts exF exX r.2))

/-- The document for the example: the text is in order, the reference to something that does not exist is marked, the subname without implementation is red. The line in the
text of a link to code is one less than the line in its address. -/
theorem exDoc_text : exDocText (some c!"http://x/") = some (true,
    c!"# Table Of Contents\n- <a style=\"font-weight: bold; color: #FF851B\" title=\"REQ-A\" href=\"#REQ-A\">REQ-a</a>\n" ++
    c!"- <a style=\"font-weight: bold; color: #FF851B\" title=\"SPC-A\" href=\"#SPC-A\">SPC-a</a>\n" ++
    c!"\n\n# REQ-a\n<details>\n<summary><b>metadata</b></summary>\n\n<b>partof:</b> <i>none</i></a><br>\n" ++
    c!"<b>parts:</b><br>\n<li><a style=\"font-weight: bold; color: #FF851B\" title=\"SPC-A\" href=\"#SPC-A\">SPC-a</a></li>\n" ++
    c!"<b>file:</b> <a href=\"http://x/design/a.md#L1\">design/a.md</a><br>\n<b>impl:</b> <i>not implemented</i><br>\n" ++
    c!"<b>spc:</b>..%&nbsp;&nbsp;<b>tst:</b>..%<br>\n<hr>\n</details>\n\nsee <a style=\"font-weight: bold; color: #FF851B\" title=\"SPC-A.X\" href=\"#SPC-A\">SPC-A.X</a> and <a style=\"font-style: italic; color: #B10DC9\" title=\"SPC-GONE not found\" >SPC-gone</a>\n" ++
    c!"\n# SPC-a\n<details>\n<summary><b>metadata</b></summary>\n\n<b>partof:</b><br>\n<li><a style=\"font-weight: bold; color: #FF851B\" title=\"REQ-A\" href=\"#REQ-A\">REQ-a</a></li>\n" ++
    c!"<b>parts:</b> <i>none</i></a><br>\n<b>file:</b> <a href=\"http://x/design/a.md#L1\">design/a.md</a><br>\n" ++
    c!"<b>impl:</b> <a href=\"http://x/src/x.rs#L1\">src/x.rs[0]</a><br>\n<b>spc:</b>..%&nbsp;&nbsp;<b>tst:</b>..%<br>\n" ++
    c!"<hr>\n</details>\n\nhow <a title=\"/p/src/x.rs[1]\" style=\"color: #0074D9\" href=\"http://x/src/x.rs#L2\"><b>.x</b></a> <span title=\"Not Implemented\" style=\"color: #FF4136\"><b><i>.y</i></b></span>\n" ++
    c!"```dot\n\n        {\n            \"REQ-A\" [\n                label=\"REQ-a\";\n                href=\"#req-a\";\n" ++
    c!"                fontcolor=\"#FF851B\";\n                fontsize=12; margin=0.01;\n                shape=invhouse;\n" ++
    c!"                penwidth=1.5\n            ]\n        }\n         -> \n        {\n            \".Y\" [\n" ++
    c!"                label=\".y\";\n                fontsize=12; margin=0.15;\n                shape=cds;\n" ++
    c!"                penwidth=1.5; fontcolor=\"#FF4136\";\n            ]\n        }\n        \n\n" ++
    c!"```\n\n\n") := by decide +kernel

/-- With an address pattern that is not valid the file ends before the first address. -/
theorem exDoc_cut : exDocText (some c!"bad{") = some (false,
    c!"# Table Of Contents\n- <a style=\"font-weight: bold; color: #FF851B\" title=\"REQ-A\" href=\"#REQ-A\">REQ-a</a>\n" ++
    c!"- <a style=\"font-weight: bold; color: #FF851B\" title=\"SPC-A\" href=\"#SPC-A\">SPC-a</a>\n" ++
    c!"\n\n# REQ-a\n<details>\n<summary><b>metadata</b></summary>\n\n<b>partof:</b> <i>none</i></a><br>\n" ++
    c!"<b>parts:</b><br>\n<li><a style=\"font-weight: bold; color: #FF851B\" title=\"SPC-A\" href=\"#SPC-A\">SPC-a</a></li>\n") := by decide +kernel

/-- `C55_document`, `C55_text`, `C55_warned` apply to the project of the example, `C55_cut_short` with the second pattern, `C55_bad_url` with both. -/
example (url : Str) (hu : url = c!"http://x/" ∨ url = c!"bad{") : ∃ c p, ReadsProject urlLibs (fun _ => some (exUrlRaw (some url))) exId 4 exDocFs c!"/p" (.ok (c, p)) ∧ p.artifacts ≠ [] ∧
    (∀ fmt f l, exF.strfmt fmt f l = none ↔ urlLibs.urlErr fmt ≠ none) := by
  have hF : ∀ fmt f l, exF.strfmt fmt f l = none ↔ urlLibs.urlErr fmt ≠ none := by
    intro fmt f l
    simp only [exF, urlLibs]
    split <;> simp
  have r := exDoc_reads (some url)
  have e : (exDoc (some url)).toOption.map (fun r => r.2.artifacts.isEmpty) = some false := by
    rcases hu with rfl | rfl <;> decide +kernel
  generalize exDoc (some url) = o at e r
  cases o with
  | ok x =>
    simp only [Res.toOption, Option.map_some, Option.some.injEq] at e
    exact ⟨x.1, x.2, r, fun h => (by rw [h] at e; cases e), hF⟩
  | err => cases e
  | panic => cases e

/-- What happens to the disk of the example. -/
theorem exDoc_exports (url : Str) (html : Project → FS → Nat → FS → Prop) (dest : FilePath) :
    ∀ r, exDoc (some url) = .ok r → Exports urlLibs exF html (fun _ => some (exUrlRaw (some url))) exX exId 4 exDocFs c!"/p/src" ⟨c!"MD", dest⟩
      (exportMarkdown exF exX exDocFs dest r.2).1 (exportMarkdown exF exX exDocFs dest r.2).2 := by
  intro r e
  have h := exDoc_reads (some url)
  rw [e] at h
  unfold Exports
  rw [show findRepo exDocFs c!"/p/src" = some c!"/p" from by decide +kernel]
  refine ⟨_, h, ?_⟩
  show if lower c!"MD" = c!"html" then _ else if lower c!"MD" = c!"md" then _ else _
  rw [if_neg (by decide), if_pos (by decide)]

/-- The export works with the first pattern. -/
example (html : Project → FS → Nat → FS → Prop) : ∃ fs', Exports urlLibs exF html (fun _ => some (exUrlRaw (some c!"http://x/"))) exX exId 4 exDocFs c!"/p/src" ⟨c!"MD", c!"/p/doc.md"⟩ 0 fs' := by
  have h := exDoc_exports c!"http://x/" html c!"/p/doc.md"
  have e : (exDoc (some c!"http://x/")).toOption.map (fun r => (exportMarkdown exF exX exDocFs c!"/p/doc.md" r.2).1) = some 0 := by decide +kernel
  generalize exDoc (some c!"http://x/") = o at h e
  cases o with
  | ok r =>
    have h := h r rfl
    simp only [Res.toOption, Option.map_some, Option.some.injEq] at e
    rw [e] at h
    exact ⟨_, h⟩
  | err => cases e
  | panic => cases e

/-- With an address pattern that is not valid the program crashes, and a file that was there before has lost its contents: the document ends within the first section. -/
theorem C55_bad_url_overwrites (html : Project → FS → Nat → FS → Prop) : ∃ (fs fs' : FS) (old new : Str) (cmd : ExportCmd) (readToml : Str → Option SettingsRaw),
    Exports urlLibs exF html readToml exX exId 4 fs c!"/p/src" cmd 101 fs' ∧ IMap.get? fs cmd.dest = some (.file (.text old)) ∧ old ≠ [] ∧
    IMap.get? fs' cmd.dest = some (.file (.text new)) ∧ exDocText (some c!"bad{") = some (false, new) := by
  have h := exDoc_exports c!"bad{" html c!"/p/src/x.rs"
  have e : (exDoc (some c!"bad{")).toOption.map (fun r => ((exportMarkdown exF exX exDocFs c!"/p/src/x.rs" r.2).1,
      match IMap.get? (exportMarkdown exF exX exDocFs c!"/p/src/x.rs" r.2).2 c!"/p/src/x.rs" with | some (.file (.text t)) => some t | _ => none)) =
      some (101, (exDocText (some c!"bad{")).map Prod.snd) := by decide +kernel
  have e2 := exDoc_cut
  generalize exDocText (some c!"bad{") = t at e e2 ⊢
  have hold : IMap.get? exDocFs c!"/p/src/x.rs" = some (.file (.text c!"// #SPC-a\n// #SPC-a.x")) := by decide +kernel
  generalize exDocFs = g at h e hold
  generalize exDoc (some c!"bad{") = o at h e
  cases o with
  | ok r =>
    have h := h r rfl
    simp only [Res.toOption, Option.map_some, Option.some.injEq, Prod.mk.injEq] at e
    rw [e.1] at h
    subst e2
    refine ⟨g, _, _, _, _, _, h, hold, by simp, ?_, rfl⟩
    have e2 := e.2
    revert e2
    generalize IMap.get? (exportMarkdown exF exX g c!"/p/src/x.rs" r.2).2 c!"/p/src/x.rs" = q
    intro e2
    match q, e2 with
    | some (.file (.text t)), e2 => rw [Option.some.inj e2]
  | err => cases e
  | panic => cases e

end Art
