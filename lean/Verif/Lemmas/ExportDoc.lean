import Verif.Lemmas.ExportShow

/-! Lemmas for C55: the parts of the exported document. -/

namespace Art
open Spec Spec.Export Spec.Dot

/-! ## writing piece by piece -/

theorem written_ok (l : List Str) (r : List (Res Unit Str)) : written (l.map .ok ++ r) = l.flatten ++ written r := by
  induction l with
  | nil => rfl
  | cons s l ih =>
    show s ++ written (l.map .ok ++ r) = _
    rw [ih]; simp

/-- Parts of a document that can be made, with what they show, or that crash. -/
def Makes (l : List (Res Unit Str)) (S : Str → Prop) (B : Prop) : Prop := (∃ os : List Str, l = os.map .ok ∧ S os.flatten ∧ ¬ B) ∨ ((∃ x ∈ l, x = .panic) ∧ B)

theorem Makes.append {l l' : List (Res Unit Str)} {S S' : Str → Prop} {B B' : Prop} (h : Makes l S B) (h' : Makes l' S' B') :
    Makes (l ++ l') (fun s => ∃ x y, S x ∧ S' y ∧ s = x ++ y) (B ∨ B') := by
  rcases h with ⟨os, rfl, hs, hb⟩ | ⟨⟨x, hx, e⟩, hb⟩
  · rcases h' with ⟨os', rfl, hs', hb'⟩ | ⟨⟨x, hx, e⟩, hb'⟩
    · exact Or.inl ⟨os ++ os', by simp, ⟨_, _, hs, hs', by simp⟩, not_or.2 ⟨hb, hb'⟩⟩
    · exact Or.inr ⟨⟨x, by simp [hx], e⟩, Or.inr hb'⟩
  · exact Or.inr ⟨⟨x, by simp [hx], e⟩, Or.inl hb⟩

theorem Makes.imp {l : List (Res Unit Str)} {S S' : Str → Prop} {B B' : Prop} (h : Makes l S B) (hs : ∀ s, S s → S' s) (hb : B ↔ B') : Makes l S' B' := by
  rcases h with ⟨os, e, h1, h2⟩ | ⟨h1, h2⟩
  · exact Or.inl ⟨os, e, hs _ h1, fun h => h2 (hb.2 h)⟩
  · exact Or.inr ⟨h1, hb.1 h2⟩

theorem Makes.const (s : Str) : Makes [.ok s] (fun t => t = s) False := Or.inl ⟨[s], rfl, by simp, fun h => h⟩

/-- A part made from something. -/
theorem Makes.one {r : Res Unit Str} {S : Str → Prop} {B : Prop} (h : (∃ o, r = .ok o ∧ S o ∧ ¬ B) ∨ (r = .panic ∧ B)) (pre post : Str) :
    Makes [r.bind fun o => pure (pre ++ o ++ post)] (fun t => ∃ o, S o ∧ t = pre ++ o ++ post) B := by
  rcases h with ⟨o, rfl, hs, hb⟩ | ⟨rfl, hb⟩
  · exact Or.inl ⟨[pre ++ o ++ post], rfl, ⟨o, hs, by simp⟩, hb⟩
  · exact Or.inr ⟨⟨.panic, List.mem_singleton.2 rfl, rfl⟩, hb⟩

theorem Makes.flatMap {α : Type} {f : α → List (Res Unit Str)} {S : α → Str → Prop} {B : α → Prop} {l : List α} (h : ∀ a ∈ l, Makes (f a) (S a) (B a)) :
    Makes (l.flatMap f) (fun s => ∃ ss, List.Forall₂ S l ss ∧ s = ss.flatten) (∃ a ∈ l, B a) := by
  induction l with
  | nil => exact Or.inl ⟨[], rfl, ⟨[], .nil, rfl⟩, by simp⟩
  | cons a l ih =>
    have := (h a (by simp)).append (ih fun b hb => h b (by simp [hb]))
    refine this.imp ?_ (by simp)
    rintro s ⟨x, y, hx, ⟨ss, hss, rfl⟩, rfl⟩
    exact ⟨x :: ss, .cons hx hss, rfl⟩

/-- The file afterwards. -/
theorem Makes.written {l : List (Res Unit Str)} {S : Str → Prop} {B : Prop} (h : Makes l S B) :
    (l.all Res.isOk = true ↔ ¬ B) ∧ (¬ B → S (Art.written l)) := by
  rcases h with ⟨os, rfl, hs, hb⟩ | ⟨⟨x, hx, rfl⟩, hb⟩
  · refine ⟨⟨fun _ => hb, fun _ => ?_⟩, fun _ => ?_⟩
    · rw [List.all_eq_true]
      intro x hx
      obtain ⟨o, _, rfl⟩ := List.mem_map.1 hx
      rfl
    · have := written_ok os []
      simp only [List.append_nil, Art.written] at this
      rw [this]; exact hs
  · refine ⟨⟨fun h => ?_, fun h => absurd hb h⟩, fun h => absurd hb h⟩
    rw [List.all_eq_true] at h
    exact absurd (h _ hx) (by decide)

/-! ## places in the code -/

variable {F : ExportLibs} {md : SerMd}

theorem codeUrlOf_cases (F : ExportLibs) (md : SerMd) (loc : CodeLoc) :
    (md.codeUrl = none ∧ md.codeUrlOf F loc = .ok none ∧ ¬ NoAddress F md loc) ∨
    (∃ fmt u, md.codeUrl = some fmt ∧ F.strfmt fmt (trimBase md.project.settings.base loc.file) (showNat (loc.line + 1)) = some u ∧
      md.codeUrlOf F loc = .ok (some u) ∧ ¬ NoAddress F md loc) ∨
    (md.codeUrlOf F loc = .panic ∧ NoAddress F md loc) := by
  unfold SerMd.codeUrlOf NoAddress
  cases hc : md.codeUrl with
  | none => exact Or.inl ⟨rfl, rfl, by simp⟩
  | some fmt =>
    right
    cases hu : F.strfmt fmt (trimBase md.project.settings.base loc.file) (showNat (loc.line + 1)) with
    | none => exact Or.inr ⟨by simp only [hu], fmt, rfl, hu⟩
    | some u =>
      refine Or.inl ⟨fmt, u, rfl, hu, by simp only [hu], ?_⟩
      rintro ⟨_, e, hn⟩
      rw [← Option.some.inj e, hu] at hn; cases hn

theorem fileHtml_shown (F : ExportLibs) (md : SerMd) (file : FilePath) :
    (∃ o, md.fileHtml F file = .ok o ∧ PlaceShown F md ⟨file, 0⟩ (trimBase md.project.settings.base file) o ∧ ¬ NoAddress F md ⟨file, 0⟩) ∨
    (md.fileHtml F file = .panic ∧ NoAddress F md ⟨file, 0⟩) := by
  unfold SerMd.fileHtml
  rcases codeUrlOf_cases F md ⟨file, 0⟩ with ⟨h1, h2, h3⟩ | ⟨fmt, u, h1, h2, h3, h4⟩ | ⟨h1, h2⟩
  · exact Or.inl ⟨_, by rw [h2]; rfl, ⟨fun _ => rfl, fun fmt e => (by rw [h1] at e; cases e)⟩, h3⟩
  · refine Or.inl ⟨_, by rw [h3]; rfl, ⟨fun e => (by rw [h1] at e; cases e), fun fmt' e => ?_⟩, h4⟩
    rw [h1] at e; cases e
    exact ⟨u, h2, rfl⟩
  · exact Or.inr ⟨by rw [h1]; rfl, h2⟩

theorem codeHtml_shown (F : ExportLibs) (md : SerMd) (loc : CodeLoc) :
    (∃ o, md.codeHtml F loc = .ok o ∧ PlaceShown F md loc (trimBase md.project.settings.base loc.file ++ c!"[" ++ showNat loc.line ++ c!"]") o ∧ ¬ NoAddress F md loc) ∨
    (md.codeHtml F loc = .panic ∧ NoAddress F md loc) := by
  unfold SerMd.codeHtml
  rcases codeUrlOf_cases F md loc with ⟨h1, h2, h3⟩ | ⟨fmt, u, h1, h2, h3, h4⟩ | ⟨h1, h2⟩
  · exact Or.inl ⟨_, by rw [h2]; rfl, ⟨fun _ => rfl, fun fmt e => (by rw [h1] at e; cases e)⟩, h3⟩
  · refine Or.inl ⟨_, by rw [h3]; rfl, ⟨fun e => (by rw [h1] at e; cases e), fun fmt' e => ?_⟩, h4⟩
    rw [h1] at e; cases e
    exact ⟨u, h2, rfl⟩
  · exact Or.inr ⟨by rw [h1]; rfl, h2⟩

theorem implHtml_shown (F : ExportLibs) (md : SerMd) (a : Artifact) :
    (∃ o, md.implHtml F a = .ok o ∧ ImplShown F md a o ∧ ¬ ∃ loc code, a.impl = .code code ∧ code.primary = some loc ∧ NoAddress F md loc) ∨
    (md.implHtml F a = .panic ∧ ∃ loc code, a.impl = .code code ∧ code.primary = some loc ∧ NoAddress F md loc) := by
  unfold SerMd.implHtml ImplShown
  match hi : a.impl with
  | .done d => exact Or.inl ⟨d, rfl, ⟨by rintro _ ⟨⟩; rfl, nofun, by rintro (h | ⟨_, h, _⟩) <;> cases h⟩, by rintro ⟨_, _, h, _⟩; cases h⟩
  | .notImpl => exact Or.inl ⟨_, rfl, ⟨nofun, nofun, fun _ => rfl⟩, by rintro ⟨_, _, h, _⟩; cases h⟩
  | .code ⟨none, m⟩ =>
    exact Or.inl ⟨_, rfl, ⟨fun _ h => (by cases h), fun _ _ h h' => (by cases h; cases h'), fun _ => rfl⟩, by rintro ⟨_, _, ⟨⟩, h, _⟩; cases h⟩
  | .code ⟨some loc, m⟩ =>
    rcases codeHtml_shown F md loc with ⟨o, h1, h2, h3⟩ | ⟨h1, h2⟩
    · refine Or.inl ⟨o, h1, ⟨nofun, ?_, ?_⟩, ?_⟩
      · rintro _ _ ⟨⟩ e; cases e; exact h2
      · rintro (h | ⟨_, ⟨⟩, h⟩) <;> cases h
      · rintro ⟨_, _, ⟨⟩, e, h⟩; cases e; exact h3 h
    · exact Or.inr ⟨h1, loc, _, rfl, rfl, h2⟩

/-! ## relatives -/

theorem familyMd_shown {p : Project} (R : Readable p) (what : Str) (names : List Name) : ∃ o, p.familyMd what names = .ok o ∧ NamesShown p what names o := by
  unfold Project.familyMd NamesShown
  have hm : ∃ os, Res.mapM' (fun n => p.nameMd n none) names = .ok os ∧ List.Forall₂ (fun (n : Name) o => RefShown p n.raw none o) names os := by
    induction names with
    | nil => exact ⟨[], rfl, .nil⟩
    | cons n l ih =>
      obtain ⟨os, h1, h2⟩ := ih
      obtain ⟨o, h3, h4⟩ := nameMd_shown R n.fromStr_raw_self (sub := none) (by simp)
      exact ⟨o :: os, by simp only [Res.mapM', Option.map_none] at h3 ⊢; rw [h3, h1]; rfl, .cons h4 h2⟩
  obtain ⟨os, h1, h2⟩ := hm
  cases names with
  | nil => exact ⟨_, rfl, fun _ => rfl, fun h => absurd rfl h⟩
  | cons n l => exact ⟨_, by simp only [List.isEmpty_cons, Bool.false_eq_true, if_false, h1]; rfl, nofun, fun _ => ⟨os, h2, rfl⟩⟩

section
variable {L : Libs} {readToml : Str → Option SettingsRaw} {hash : ArtifactIm → HashIm} {ncpu : Nat} {fs : FS} {base : FilePath} {c : Categorized}

theorem neighbours_drawn {p : Project} (h : ReadsProject L readToml hash ncpu fs base (.ok (c, p))) {x : Name × Artifact} (hx : x ∈ p.artifacts) :
    ∃ s, p.artifactDot x.2 = .ok s ∧ NeighboursDrawn p x.2 s := by
  obtain ⟨s, ns, es, h1, ⟨ls, h2, h3⟩, _, h4, h5, _⟩ := C54_artifact h hx
  have hnode : ∀ {n : Name × Bool} {l : List Item}, Drawn p n.2 n.1 l → ∀ k, Item.node k ∈ l ↔ k = upper n.1.raw := by
    rintro n l (⟨y, _, _, c, _, rfl⟩ | ⟨_, rfl⟩) k
    · unfold drawnArt; split <;> simp
    · simp [drawnMissing]
  have hedge : ∀ {n : Name × Bool} {l : List Item}, Drawn p n.2 n.1 l → ∀ k k', Item.edge k k' ∉ l := by
    rintro n l (⟨y, _, _, c, _, rfl⟩ | ⟨_, rfl⟩) k k'
    · unfold drawnArt; split <;> simp
    · simp [drawnMissing]
  have hall : ∀ {ns : List (Name × Bool)} {ls : List (List Item)}, List.Forall₂ (fun n l => Drawn p n.2 n.1 l) ns ls →
      (∀ k, Item.node k ∈ ls.flatten ↔ k ∈ ns.map (fun n => upper n.1.raw)) ∧ ∀ k k', Item.edge k k' ∉ ls.flatten := by
    intro ns ls h
    induction h with
    | nil => simp
    | cons h1 _ ih =>
      refine ⟨fun k => ?_, fun k k' => ?_⟩
      · rw [List.flatten_cons, List.mem_append, hnode h1, ih.1, List.map_cons, List.mem_cons]
      · rw [List.flatten_cons, List.mem_append, not_or]; exact ⟨hedge h1 k k', ih.2 k k'⟩
  obtain ⟨a1, a2⟩ := hall h3
  refine ⟨s, h1, fun k => ?_, fun k k' => ?_⟩
  · rw [h2, List.mem_append, a1, List.map_cons, List.mem_cons, h4]
    simp
  · rw [h2, List.mem_append]
    refine Iff.trans ?_ (h5 k k')
    have := a2 k k'
    simp only [this, false_or, List.mem_map, Item.edge.injEq, Prod.exists]
    exact ⟨fun ⟨a, b, h, e1, e2⟩ => by rw [← e1, ← e2]; exact h, fun h => ⟨k, k', h, rfl, rfl⟩⟩

theorem family_shown (h : ReadsProject L readToml hash ncpu fs base (.ok (c, md.project))) {x : Name × Artifact} (hx : x ∈ md.project.artifacts) :
    ∃ o, md.family' x.2 = .ok o ∧ FamilyShown md x.2 o := by
  have R := read_readable h
  unfold SerMd.family' FamilyShown
  cases hf : md.family with
  | list =>
    obtain ⟨o, h1, h2⟩ := familyMd_shown R c!"partof" x.2.partof
    obtain ⟨o', h1', h2'⟩ := familyMd_shown R c!"parts" x.2.parts
    exact ⟨o ++ o', by simp only [h1, h1']; rfl, fun _ => ⟨o, o', h2, h2', rfl⟩, nofun⟩
  | dot =>
    obtain ⟨d, h1, h2⟩ := neighbours_drawn h hx
    cases hd : md.dot with
    | replaceBraces a b =>
      exact ⟨_, by simp only [h1]; rfl, nofun, fun _ => ⟨a, d, b, h2, by unfold details; simp only [List.append_assoc, List.cons_append, List.nil_append], Or.inl ⟨a, b, rfl, rfl, rfl⟩⟩⟩
    | ignore => exact ⟨_, by simp only [h1]; rfl, nofun, fun _ => ⟨c!"```dot", d, c!"```", h2, by unfold details; simp only [List.append_assoc, List.cons_append, List.nil_append], Or.inr ⟨nofun, rfl, rfl⟩⟩⟩
    | removeBraces => exact ⟨_, by simp only [h1]; rfl, nofun, fun _ => ⟨c!"```dot", d, c!"```", h2, by unfold details; simp only [List.append_assoc, List.cons_append, List.nil_append], Or.inr ⟨nofun, rfl, rfl⟩⟩⟩

/-! ## sections -/

theorem text_shown {p : Project} (R : Readable p) (e : md.project = p) {x : Name × Artifact} (hx : x ∈ p.artifacts) :
    (∃ o, md.replace F x.2.name.raw x.2.text = .ok o ∧ (∃ ps os, Cut true x.2.text ps ∧ List.Forall₂ (PieceShown F md x.2.name.raw) ps os ∧ o = os.flatten) ∧
      ¬ ∃ loc ps s, Cut true x.2.text ps ∧ Piece.sub s ∈ ps ∧ Implemented p x.2.name.raw s loc ∧ NoAddress F md loc) ∨
    (md.replace F x.2.name.raw x.2.text = .panic ∧
      ∃ loc ps s, Cut true x.2.text ps ∧ Piece.sub s ∈ ps ∧ Implemented p x.2.name.raw s loc ∧ NoAddress F md loc) := by
  subst e
  have hno : ∀ n sub, Within x.2.text (.ref n sub) → ¬ Panics n := by
    intro n sub hw hp
    obtain ⟨name, hn⟩ := R.refs x hx n _ ((within_ref _ _ _).1 hw)
    rw [show Name.fromStr n = .panic from hp] at hn; cases hn
  have hpar : ¬ Panics x.2.name.raw := by
    intro hp
    have := x.2.name.fromStr_raw_self
    rw [show Name.fromStr x.2.name.raw = .panic from hp] at this; cases this
  obtain ⟨ps, hc, ⟨os, h1, h2, h3⟩ | ⟨h1, y, hy, hb⟩⟩ := replace_text (F := F) R x.2.name.raw x.2.text
  · refine Or.inl ⟨_, h1, ⟨ps, os, hc, h2, rfl⟩, ?_⟩
    rintro ⟨loc, qs, s, hq, hs, hi, hn⟩
    rw [cut_unique hq hc] at hs
    exact h3 _ hs (Or.inr ⟨loc, hi, hn⟩)
  · refine Or.inr ⟨h1, ?_⟩
    cases y with
    | plain => exact absurd hb id
    | sub s =>
      rcases hb with hb | ⟨loc, hi, hn⟩
      · exact absurd hb hpar
      · exact ⟨loc, ps, s, hc, hy, hi, hn⟩
    | ref n s => exact absurd hb (hno n s ⟨ps, hc, Or.inl hy⟩)
    | graph head body =>
      obtain ⟨qs, hq, q, hqm, hb⟩ := hb
      cases q with
      | plain => exact absurd hb id
      | sub s => exact absurd hb hpar
      | ref n s => exact absurd hb (hno n s ⟨ps, hc, Or.inr ⟨head, body, qs, hy, hq, hqm⟩⟩)
      | graph => exact absurd hb id

theorem section_shown (h : ReadsProject L readToml hash ncpu fs base (.ok (c, md.project))) {x : Name × Artifact} (hx : x ∈ md.project.artifacts) :
    Makes (md.artMd F x.2) (SectionShown F md x.2) (∃ loc, AddressedIn md.project x.2 loc ∧ NoAddress F md loc) := by
  have R := read_readable h
  obtain ⟨fam, f1, f2⟩ := family_shown h hx
  have m1 := Makes.const (md.namePrefix ++ c!"# " ++ x.2.name.raw ++ c!"\n")
  have m2 := Makes.const c!"<details>\n<summary><b>metadata</b></summary>\n\n"
  have m3 := Makes.const fam
  have m4 := Makes.one (fileHtml_shown F md x.2.file) c!"<b>file:</b> " c!"<br>\n"
  have m5 := Makes.one (implHtml_shown F md x.2) c!"<b>impl:</b> " c!"<br>\n"
  have m6 := Makes.const (c!"<b>spc:</b>" ++ F.percent x.2.completed.spc ++ c!"&nbsp;&nbsp;<b>tst:</b>" ++ F.percent x.2.completed.tst ++ c!"<br>\n")
  have m7 := Makes.const c!"<hr>\n"
  have m8 := Makes.const c!"</details>\n\n"
  have m9 := Makes.one (text_shown (F := F) R rfl hx) [] c!"\n\n"
  have m := (((((((m1.append m2).append m3).append m4).append m5).append m6).append m7).append m8).append m9
  unfold SerMd.artMd
  rw [f1]
  refine Makes.imp m ?_ ?_
  · rintro s ⟨_, _, ⟨_, _, ⟨_, _, ⟨_, _, ⟨_, _, ⟨_, _, ⟨_, _, ⟨_, _, rfl, rfl, rfl⟩, rfl, rfl⟩, ⟨file, hf, rfl⟩, rfl⟩, ⟨impl, hi, rfl⟩, rfl⟩, rfl, rfl⟩, rfl, rfl⟩, rfl, rfl⟩, ⟨_, ⟨ps, os, hc, ht, rfl⟩, rfl⟩, rfl⟩
    refine ⟨_, file, impl, ps, os, f2, hf, hi, hc, ht, ?_⟩
    simp only [List.append_assoc, List.cons_append, List.nil_append]
  · simp only [false_or, or_false, AddressedIn]
    constructor
    · rintro ((h | ⟨loc, code, h1, h2, h3⟩) | ⟨loc, ps, s, h1, h2, h3, h4⟩)
      · exact ⟨_, Or.inl rfl, h⟩
      · exact ⟨loc, Or.inr (Or.inl ⟨code, h1, h2⟩), h3⟩
      · exact ⟨loc, Or.inr (Or.inr ⟨ps, s, h1, h2, h3⟩), h4⟩
    · rintro ⟨loc, rfl | ⟨code, h1, h2⟩ | ⟨ps, s, h1, h2, h3⟩, h4⟩
      · exact Or.inl (Or.inl h4)
      · exact Or.inl (Or.inr ⟨loc, code, h1, h2, h4⟩)
      · exact Or.inr ⟨loc, ps, s, h1, h2, h3, h4⟩

theorem contents_shown (R : Readable md.project) : Makes md.tocMd (ContentsShown md) False := by
  have hm : Makes (md.project.artifacts.flatMap fun x => [(do let s ← md.project.nameMd x.1 none; pure (c!"- " ++ s ++ c!"\n") : Res Unit Str)])
      (fun s => ∃ ss, List.Forall₂ (fun (x : Name × Artifact) s => ∃ o, (RefShown md.project x.2.name.raw none o ∧ target o = some (upper x.2.name.raw)) ∧ s = c!"- " ++ o ++ c!"\n") md.project.artifacts ss ∧ s = ss.flatten)
      (∃ x ∈ md.project.artifacts, False) := by
    refine Makes.flatMap fun x hx => ?_
    obtain ⟨o, h3, h4⟩ := nameMd_shown R x.2.name.fromStr_raw_self (sub := none) (by simp)
    have e : md.project.nameMd x.1 none = .ok o := by rw [← R.linked.names x hx]; exact h3
    refine Makes.one (Or.inl ⟨o, e, ⟨h4, ?_⟩, fun h => h⟩) _ _
    obtain ⟨name, hn, hs, _⟩ := h4
    rw [x.2.name.fromStr_raw_self] at hn
    cases hn
    refine (hs ?_).1
    rintro (hno | ⟨_, _, _, _, hs, _⟩)
    · exact hno x.2 (List.mem_map.2 ⟨x, hx, rfl⟩) rfl
    · cases hs
  have m := ((Makes.const (md.namePrefix ++ c!"# Table Of Contents\n")).append hm).append (Makes.const c!"\n\n")
  unfold SerMd.tocMd
  rw [List.map_eq_flatMap]
  refine Makes.imp m ?_ (by simp)
  rintro s ⟨_, _, ⟨_, _, rfl, ⟨ss, hss, rfl⟩, rfl⟩, rfl, rfl⟩
  have : ∃ os, List.Forall₂ (fun (a : Artifact) o => RefShown md.project a.name.raw none o ∧ target o = some (upper a.name.raw)) (arts md.project) os ∧
      ss = os.map (fun o => c!"- " ++ o ++ c!"\n") := by
    unfold arts
    generalize md.project.artifacts = l at hss
    induction hss with
    | nil => exact ⟨[], .nil, rfl⟩
    | cons h1 _ ih =>
      obtain ⟨os, h2, rfl⟩ := ih
      obtain ⟨o, h3, rfl⟩ := h1
      exact ⟨o :: os, .cons h3 h2, rfl⟩
  obtain ⟨os, h1, rfl⟩ := this
  exact ⟨os, h1, by rw [List.flatMap_def]⟩

/-- The whole document. -/
theorem doc_shown (h : ReadsProject L readToml hash ncpu fs base (.ok (c, md.project))) (header : Option Str) (toc : Bool) :
    Makes (md.toMd F header toc) (DocShown F md header toc) (∃ loc, Addressed md.project loc ∧ NoAddress F md loc) := by
  have m1 : Makes (match header with | some h => [.ok (h ++ c!"\n")] | none => []) (fun s => s = (header.map (· ++ c!"\n")).getD []) False := by
    cases header with
    | none => exact Or.inl ⟨[], rfl, rfl, fun h => h⟩
    | some x => exact Makes.const _
  have m2 : Makes (if toc then md.tocMd else []) (fun s => if toc then ContentsShown md s else s = []) False := by
    cases toc with
    | true => exact contents_shown (read_readable h)
    | false => exact Or.inl ⟨[], rfl, rfl, fun h => h⟩
  have m3 := Makes.flatMap (f := fun x : Name × Artifact => md.artMd F x.2) (fun x hx => section_shown (F := F) h hx)
  refine ((m1.append m2).append m3).imp ?_ ?_
  · rintro s ⟨_, _, ⟨_, y, rfl, hy, rfl⟩, ⟨ss, hss, rfl⟩, rfl⟩
    refine ⟨y, ss, hy, ?_, rfl⟩
    unfold arts
    rw [List.forall₂_map_left_iff]
    exact hss
  · simp only [false_or]
    constructor
    · rintro ⟨x, hx, loc, h1, h2⟩
      exact ⟨loc, ⟨x.2, List.mem_map.2 ⟨x, hx, rfl⟩, h1⟩, h2⟩
    · rintro ⟨loc, ⟨a, ha, h1⟩, h2⟩
      obtain ⟨x, hx, rfl⟩ := List.mem_map.1 ha
      exact ⟨x, hx, loc, h1, h2⟩

end

end Art
