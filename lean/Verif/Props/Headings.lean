import Verif.Lemmas.HeadParts
import Verif.Props.Export
import Verif.Props.Reports

/-! C87: the sections of the exported document are those of the artifacts, and when text can pass for a section. -/

namespace Art
open Spec Spec.Export Spec.Headings

variable {L : Libs} {F : ExportLibs} {readToml : Str → Option SettingsRaw} {hash : ArtifactIm → HashIm} {n : Nat} {fs : FS} {base : FilePath} {c : Categorized} {p : Project}
  {ex : ExportSettings}

theorem headLine_nameLine (fold : Char → Char) (pre : Str) (a : Artifact) : NameLine fold pre (headLine pre a) :=
  ⟨pre, c!" ", a.name.raw, [], by simp [headLine], rfl, (by intro c hc; simp at hc; subst hc; decide), nameLike_iff.1 (nameLike_raw a.name), by intro c hc; cases hc⟩

theorem headLine_last (pre : Str) (a : Artifact) : (headLine pre a).getLast? ≠ some '\r' := by
  obtain ⟨d, hd, hdn⟩ := name_last (nameLike_iff.1 (nameLike_raw a.name))
  intro e
  unfold headLine at e
  rw [List.getLast?_append, hd] at e
  have e : d = '\r' := by simpa using e
  rw [e] at hdn
  revert hdn; decide

/-- A link to an artifact ends with an angle bracket. -/
theorem nameMd_shut {p : Project} {n : Name} {o : Str} (h : p.nameMd n none = .ok o) : ∃ t, o = t ++ c!">" ∧ '\n' ∉ t := by
  have hl := (nameMd_line (sub := none) (by simp) h).2
  have key : ∀ (name sub color : Str) (bold : Bool) (title : Str) (href : Option Str), ∃ t, nameHtml name sub color bold title href = t ++ c!">" := by
    intro name sub color bold title href
    rw [nameHtml_eq]
    exact ⟨_, by rw [show c!"</a>" = c!"</a" ++ c!">" from rfl, ← List.append_assoc]⟩
  have : ∃ t, o = t ++ c!">" := by
    unfold Project.nameMd at h
    split at h
    · cases h; exact key _ _ _ _ _ _
    · simp only at h
      cases hc : p.nameColor n with
      | err e => rw [hc] at h; cases h
      | panic => rw [hc] at h; cases h
      | ok x => rw [hc] at h; cases h; exact key _ _ _ _ _ _
  obtain ⟨t, rfl⟩ := this
  exact ⟨t, rfl, fun hm => hl (List.mem_append_left _ hm)⟩

/-- The lines of the section about one artifact. -/
theorem section_block (h : ReadsProject L readToml hash n fs base (.ok (c, p))) (he : c.error = []) (hp : ex.namePrefix = p.settings.pre)
    (hlt : ∀ x ∈ p.settings.pre, L.fold x ≠ L.fold '<') (hnl : '\n' ∉ p.settings.pre) (u : Unbroken F ex p) {a : Artifact} (ha : a ∈ arts p) :
    List.Forall₂ (PartOut L.fold p.settings.pre) ((exporter ex p).artMd F a) [[headLine p.settings.pre a], [], [], [], [], [], [], [], []] := by
  have ok : PlacesOk F (exporter ex p) := ⟨u.address, u.fences⟩
  have R : Readable (exporter ex p).project := read_readable h
  have hpan : ¬ Panics a.name.raw := fun e => by
    have := a.name.fromStr_raw_self
    rw [show Name.fromStr a.name.raw = .panic from e] at this
    cases this
  have hmeta : HeadBlock L.fold p.settings.pre c!"<details>\n<summary><b>metadata</b></summary>\n\n" [] := headBlock_lines c!"<details>\n<summary><b>metadata</b></summary>\n" rfl (shut_free (by decide))
  unfold SerMd.artMd
  refine .cons ?_ (.cons ?_ (.cons ?_ (.cons ?_ (.cons ?_ (.cons ?_ (.cons ?_ (.cons ?_ (.cons ?_ .nil))))))))
  · rintro s ⟨⟩
    have e : (exporter ex p).namePrefix ++ c!"# " ++ a.name.raw ++ c!"\n" = headLine p.settings.pre a ++ c!"\n" := by
      rw [show (exporter ex p).namePrefix = p.settings.pre from hp]; rfl
    rw [e]
    refine headBlock_head (headLine_nameLine _ _ a) ?_ (headLine_last _ a)
    unfold headLine
    simp only [List.mem_append, not_or]
    exact ⟨⟨hnl, by decide⟩, raw_nl a.name⟩
  · rintro s ⟨⟩; exact hmeta
  · exact fun s hs => family_block ok hs
  · intro s hs
    cases hf : (exporter ex p).fileHtml F a.file with
    | err e => rw [hf] at hs; cases hs
    | panic => rw [hf] at hs; cases hs
    | ok x =>
      rw [hf] at hs
      cases hs
      exact line_block c!"<br" (by decide) (fileHtml_nl ok (u.places ⟨a.file, 0⟩ ⟨a, ha, Or.inl rfl⟩) hf) (by decide)
  · intro s hs
    cases hf : (exporter ex p).implHtml F a with
    | err e => rw [hf] at hs; cases hs
    | panic => rw [hf] at hs; cases hs
    | ok x =>
      rw [hf] at hs
      cases hs
      exact line_block c!"<br" (by decide) (implHtml_nl ok (u.done a ha) (fun code loc h1 h2 => u.places loc ⟨a, ha, Or.inr (Or.inl ⟨code, h1, h2⟩)⟩) hf) (by decide)
  · rintro s ⟨⟩
    have := line_block (fold := L.fold) (pre := p.settings.pre) (a := c!"<b>spc:</b>") (x := F.percent a.completed.spc ++ c!"&nbsp;&nbsp;<b>tst:</b>" ++ F.percent a.completed.tst) c!"<br" (by decide)
      (by simp only [List.mem_append, not_or]; exact ⟨⟨u.percent _, by decide⟩, u.percent _⟩) (by decide)
    simpa using this
  · rintro s ⟨⟩; exact headBlock_lines c!"<hr>" rfl (shut_free (by decide))
  · rintro s ⟨⟩; exact headBlock_lines c!"</details>\n" rfl (shut_free (by decide))
  · intro s hs
    cases hf : (exporter ex p).replace F a.name.raw a.text with
    | err e => rw [hf] at hs; cases hs
    | panic => rw [hf] at hs; cases hs
    | ok x =>
      rw [hf] at hs
      cases hs
      have hq := replace_quiet (fold := L.fold) (pre := p.settings.pre) R ok hlt hpan
        (fun ps s loc hc hm hi => u.places loc ⟨a, ha, Or.inr (Or.inr ⟨ps, s, hc, hm, hi⟩)⟩) (u.graphs a ha) (fun l hl hn => ?_) hf
      · have h1 := headBlock_quiet hq
        have h2 : HeadBlock L.fold p.settings.pre c!"\n" [] := headBlock_lines [] rfl (shut_free (by decide))
        have := h1.append h2
        simpa using this
      · have := ((Reports.C83_complete h).1 _).2 ⟨Reports.Complaint.nameLine (L := L) ha hl hn, rfl⟩
        rw [he] at this
        cases this

theorem toc_block (fold : Char → Char) (hp : ex.namePrefix = p.settings.pre) (hnl : '\n' ∉ p.settings.pre) :
    ∃ hss, List.Forall₂ (PartOut fold p.settings.pre) (exporter ex p).tocMd hss ∧ hss.flatten = [] := by
  have h1 : PartOut fold p.settings.pre (.ok ((exporter ex p).namePrefix ++ c!"# Table Of Contents\n")) [] := by
    rintro s ⟨⟩
    have e : (exporter ex p).namePrefix ++ c!"# Table Of Contents\n" = (p.settings.pre ++ c!"# Table Of Contents") ++ c!"\n" := by
      rw [show (exporter ex p).namePrefix = p.settings.pre from hp]; simp
    rw [e]
    refine headBlock_quiet fun l hl => ?_
    have hn : '\n' ∉ p.settings.pre ++ c!"# Table Of Contents" := by
      simp only [List.mem_append, not_or]
      exact ⟨hnl, by decide⟩
    have e2 := splitRows_plain hn [] []
    rw [List.append_nil, List.nil_append] at e2
    rw [e2] at hl
    simp only [splitRows, List.mem_singleton] at hl
    subst hl
    intro hl
    have e3 : p.settings.pre ++ c!"# Table Of Contents" = (p.settings.pre ++ c!"# Table Of") ++ ' ' :: c!"Contents" := by simp
    rw [e3] at hl
    exact not_nameLine_of_tail (by decide) (by decide) (by decide) (nameLine_parts hl)
  have h2 : ∀ l : List (Name × Artifact), ∃ hss, List.Forall₂ (PartOut fold p.settings.pre) (l.map (fun x => do
      let s ← (exporter ex p).project.nameMd x.1 none
      pure (c!"- " ++ s ++ c!"\n"))) hss ∧ hss.flatten = [] := by
    intro l
    induction l with
    | nil => exact ⟨[], .nil, rfl⟩
    | cons x l ih =>
      obtain ⟨hss, h3, h4⟩ := ih
      refine ⟨[] :: hss, .cons (fun s hs => ?_) h3, by simpa using h4⟩
      beta_reduce at hs
      cases hm : (exporter ex p).project.nameMd x.1 none with
      | err e => rw [hm] at hs; cases hs
      | panic => rw [hm] at hs; cases hs
      | ok o =>
        rw [hm] at hs
        cases hs
        obtain ⟨t, e, ht⟩ := nameMd_shut hm
        refine headBlock_lines (c!"- " ++ o) rfl ?_
        have e : c!"- " ++ o ++ c!"\n" = (c!"- " ++ t) ++ ['>', '\n'] := by rw [e]; simp
        rw [e]
        refine shut_line ?_ (Or.inr rfl)
        simp only [List.mem_append, not_or]
        exact ⟨by decide, ht⟩
  obtain ⟨hss, h3, h4⟩ := h2 p.artifacts
  refine ⟨[[]] ++ hss ++ [[]], List.rel_append (List.rel_append (.cons h1 .nil) h3) (.cons ?_ .nil), by simp [h4]⟩
  rintro s ⟨⟩
  exact headBlock_lines c!"\n" rfl (shut_free (by decide))

/-- C87. If a project is without errors and nothing that is inserted breaks a line, then the lines of the exported document that are read as the beginning of an artifact
are, after those of the header, exactly one for each artifact in the order of the project. -/
theorem C87_headings (h : ReadsProject L readToml hash n fs base (.ok (c, p))) (he : c.error = []) (hp : ex.namePrefix = p.settings.pre)
    (hlt : ∀ x ∈ p.settings.pre, L.fold x ≠ L.fold '<') (hnl : '\n' ∉ p.settings.pre) (u : Unbroken F ex p) (ok : (exportParts F ex p).all Res.isOk = true) :
    headings L.fold p.settings.pre (written (exportParts F ex p)) =
      (ex.header.map fun x => headings L.fold p.settings.pre (x ++ c!"\n")).getD [] ++ (arts p).map (headLine p.settings.pre) := by
  have hsec : ∀ l : List (Name × Artifact), (∀ x ∈ l, x ∈ p.artifacts) →
      ∃ hss, List.Forall₂ (PartOut L.fold p.settings.pre) (l.flatMap fun x => (exporter ex p).artMd F x.2) hss ∧ hss.flatten = (l.map Prod.snd).map (headLine p.settings.pre) := by
    intro l
    induction l with
    | nil => exact fun _ => ⟨[], .nil, rfl⟩
    | cons x l ih =>
      intro hl
      obtain ⟨hss, h1, h2⟩ := ih fun y hy => hl y (by simp [hy])
      refine ⟨_, List.rel_append (section_block h he hp hlt hnl u (a := x.2) (List.mem_map.2 ⟨x, hl x (by simp), rfl⟩)) h1, ?_⟩
      rw [List.flatten_append, h2]
      rfl
  obtain ⟨h3, h4, h5⟩ := hsec p.artifacts fun _ h => h
  obtain ⟨h6, h7, h8⟩ : ∃ hss, List.Forall₂ (PartOut L.fold p.settings.pre) (if ex.toc then (exporter ex p).tocMd else []) hss ∧ hss.flatten = [] := by
    cases ex.toc with
    | false => exact ⟨[], .nil, rfl⟩
    | true => exact toc_block L.fold hp hnl
  obtain ⟨h9, h10, h11⟩ : ∃ hss, List.Forall₂ (PartOut L.fold p.settings.pre) (match ex.header with | some h => [.ok (h ++ c!"\n")] | none => []) hss ∧
      hss.flatten = (ex.header.map fun x => headings L.fold p.settings.pre (x ++ c!"\n")).getD [] := by
    cases ex.header with
    | none => exact ⟨[], .nil, rfl⟩
    | some x => exact ⟨[_], .cons (fun s hs => by cases hs; exact headBlock_any x) .nil, by simp⟩
  have := (written_block (List.rel_append (List.rel_append h10 h7) h4) ok).all
  rw [List.flatten_append, List.flatten_append, h11, h8, h5, List.append_nil] at this
  exact this

/-- C87. No two artifacts begin with the same line. -/
theorem C87_once (h : ReadsProject L readToml hash n fs base (.ok (c, p))) (pre : Str) : ((arts p).map (headLine pre)).Nodup := by
  have hl := (read_readable h).linked
  unfold arts
  rw [List.map_map]
  have hk : (p.artifacts.map (fun x => key x.1)).Nodup := hl.nodup
  have : (p.artifacts.map (fun x => key x.2.name)).Nodup := by
    rw [show p.artifacts.map (fun x => key x.2.name) = p.artifacts.map (fun x => key x.1) from List.map_congr_left fun x hx => by rw [hl.names x hx]]
    exact hk
  unfold List.Nodup at this ⊢
  rw [List.pairwise_map] at this ⊢
  refine this.imp fun {x y} hne e => hne ?_
  have e : x.2.name.raw = y.2.name.raw := List.append_cancel_left (show (pre ++ c!"# ") ++ x.2.name.raw = (pre ++ c!"# ") ++ y.2.name.raw from e)
  have h1 := x.2.name.fromStr_raw_self
  rw [e, y.2.name.fromStr_raw_self] at h1
  injection h1 with h1
  rw [h1]

/-- C87. What `art export md` leaves in its file when it ends well. -/
theorem C87_exported {html : Project → FS → Nat → FS → Prop} {dir : FilePath} {cmd : ExportCmd} {fs' : FS} (hx : Exports L F html readToml ex hash n fs dir cmd 0 fs')
    (ht : lower cmd.ty ≠ c!"html") :
    ∃ repo c p text, findRepo fs dir = some repo ∧ ReadsProject L readToml hash n fs repo (.ok (c, p)) ∧ IMap.get? fs' cmd.dest = some (.file (.text text)) ∧
      (c.error = [] → ex.namePrefix = p.settings.pre → (∀ x ∈ p.settings.pre, L.fold x ≠ L.fold '<') → '\n' ∉ p.settings.pre → Unbroken F ex p →
        headings L.fold p.settings.pre text =
          (ex.header.map fun x => headings L.fold p.settings.pre (x ++ c!"\n")).getD [] ++ (arts p).map (headLine p.settings.pre)) := by
  rcases exports_cases hx ht with ⟨h, _⟩ | ⟨_, _, _, h, _⟩ | ⟨repo, c, p, hr, hro, hm, _, hs, hg, _⟩
  · cases h
  · cases h
  · refine ⟨repo, c, p, _, hr, hro, hg, fun he hp hlt hnl u => C87_headings hro he hp hlt hnl u ?_⟩
    by_contra hn
    rw [if_neg hn] at hs; cases hs

/-- The lines that begin an artifact can be computed. -/
theorem headings_eq (fold : Char → Char) (pre text : Str) : headings fold pre text = (lines text).filter fun l => (nameLineRe fold pre).isFull l := by
  unfold headings
  congr 1
  funext l
  rw [Bool.eq_iff_iff, nameLine_iff]
  simp

theorem graph_free {text : Str} (h : '#' ∉ text) {ps : List Piece} {head body : Str} (hc : Cut true text ps) (hm : Piece.graph head body ∈ ps) : '#' ∉ body := fun hb => by
  refine h ?_
  rw [← cut_src hc]
  exact List.mem_flatMap.2 ⟨_, hm, by simp [Piece.src, hb]⟩

end Art
