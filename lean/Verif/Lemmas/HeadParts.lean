import Verif.Lemmas.Headings
import Verif.Lemmas.ExportDoc

/-! Lemmas for C87: what is written for names, places, graphs and sections. -/

namespace Art
open Spec Spec.Export Spec.Headings

/-! ## colours, numbers, paths -/

theorem hex_nl (k : TermColor) : '\n' ∉ hex k := by cases k <;> decide

theorem nameColor_nl {p : Project} {n : Name} {c : Str} (h : p.nameColor n = .ok c) : '\n' ∉ c := by
  unfold Project.nameColor at h
  split at h
  · next a _ =>
    obtain ⟨k, _, hk, _⟩ := C38_total a.completed
    rw [hk] at h
    cases h
    exact hex_nl k
  · cases h; decide

theorem showNat_nl (n : Nat) : '\n' ∉ showNat n := fun h => by
  have := showNat_digit h
  revert this; decide

theorem trimBase_sub {b f : Str} {c : Char} (h : c ∈ trimBase b f) : c ∈ f := by
  unfold trimBase at h
  split at h
  · simp only at h
    split at h
    · exact List.mem_of_mem_drop (List.mem_of_mem_drop h)
    · exact List.mem_of_mem_drop h
  · exact h

theorem trimBase_nl {b f : Str} (h : '\n' ∉ f) : '\n' ∉ trimBase b f := fun hm => h (trimBase_sub hm)

theorem mapM'_from {ε α β : Type} {f : α → Res ε β} : ∀ {l : List α} {r : List β}, Res.mapM' f l = .ok r → ∀ {b : β}, b ∈ r → ∃ a ∈ l, f a = .ok b := by
  intro l
  induction l with
  | nil => intro r h b hb; cases h; cases hb
  | cons a l ih =>
    intro r h b hb
    rw [Res.mapM'] at h
    cases h1 : f a with
    | err e => rw [h1] at h; cases h
    | panic => rw [h1] at h; cases h
    | ok x =>
      rw [h1] at h
      cases h2 : Res.mapM' f l with
      | err e => simp only [h2] at h; cases h
      | panic => simp only [h2] at h; cases h
      | ok y =>
        simp only [h2] at h
        cases h
        rcases List.mem_cons.1 hb with rfl | hb
        · exact ⟨a, by simp, h1⟩
        · obtain ⟨c, hc, e⟩ := ih h2 hb
          exact ⟨c, by simp [hc], e⟩

/-! ## names -/

theorem nameHtml_line {name sub color : Str} {bold : Bool} {title : Str} {href : Option Str} (h1 : '\n' ∉ name) (h2 : '\n' ∉ sub) (h3 : '\n' ∉ color) (h4 : '\n' ∉ title)
    (h5 : ∀ x, href = some x → '\n' ∉ x) : '<' ∈ nameHtml name sub color bold title href ∧ '\n' ∉ nameHtml name sub color bold title href := by
  rw [nameHtml_eq]
  refine ⟨by simp, ?_⟩
  have hb : '\n' ∉ (if bold then c!"font-weight: bold; " else c!"font-style: italic; ") := by cases bold <;> decide
  have hh : '\n' ∉ hrefAttr href := by
    cases href with
    | none => decide
    | some x =>
      simp only [hrefAttr, List.mem_append, not_or]
      exact ⟨⟨by decide, h5 x rfl⟩, by decide⟩
  simp only [List.mem_append, not_or]
  repeat' apply And.intro
  all_goals first
    | assumption
    | decide

theorem raw_nl (n : Name) : '\n' ∉ n.raw := clean_nl (clean_raw n)
theorem key_nl (n : Name) : '\n' ∉ n.keyStr := clean_nl (clean_key n)

theorem nameMd_line {p : Project} {n : Name} {sub : Option Str} (hs : ∀ y, sub = some y → SubLike y) {o : Str} (h : p.nameMd n (sub.map SubName.mk) = .ok o) :
    '<' ∈ o ∧ '\n' ∉ o := by
  have nf : ∀ {t : Str}, '\n' ∉ t → '\n' ∉ t ++ c!" not found" := fun h => by
    simp only [List.mem_append, not_or]; exact ⟨h, by decide⟩
  unfold Project.nameMd at h
  split at h
  · cases h
    exact nameHtml_line (raw_nl n) (by simp) (by decide) (nf (key_nl n)) (by simp)
  · cases sub with
    | none =>
      simp only [Option.map_none] at h
      cases hc : p.nameColor n with
      | ok c =>
        rw [hc] at h
        cases h
        exact nameHtml_line (raw_nl n) (by simp) (nameColor_nl hc) (key_nl n) (fun x e => (by cases e; exact key_nl n))
      | err e => rw [hc] at h; cases h
      | panic => rw [hc] at h; cases h
    | some y =>
      have hy := clean_sub (hs y rfl)
      have hk : '\n' ∉ n.keyStr ++ (SubName.mk y).keyStr := by
        simp only [List.mem_append, not_or]
        exact ⟨key_nl n, clean_nl hy.upper⟩
      simp only [Option.map_some] at h
      split at h
      · cases hc : p.nameColor n with
        | ok c =>
          rw [hc] at h
          cases h
          exact nameHtml_line (raw_nl n) (clean_nl hy) (nameColor_nl hc) hk (fun x e => (by cases e; exact key_nl n))
        | err e => rw [hc] at h; cases h
        | panic => rw [hc] at h; cases h
      · cases h
        exact nameHtml_line (raw_nl n) (clean_nl hy) (by decide) (nf hk) (by simp)

/-! ## nodes -/

theorem clean_hash {k : Str} (h : Clean k) : '#' ∉ k := h.not_mem (by decide)

theorem shut_subname {s attrs : Str} (hs : SubLike s) (ha : '\n' ∉ attrs) : Shut (subnameRaw ⟨s⟩ attrs) := by
  have e : subnameRaw ⟨s⟩ attrs = c!"\n        {\n            \"" ++ upper s ++ c!"\" [\n                label=\"" ++ s ++
    c!"\";\n                fontsize=12; margin=0.15;\n                shape=cds;\n                " ++ (attrs ++ [';', '\n']) ++ c!"            ]\n        }\n        " := by
    unfold subnameRaw SubName.keyStr
    simp
  rw [e]
  have hc := clean_sub hs
  exact (((((shut_free (by decide)).append (shut_free (clean_hash hc.upper))).append (shut_free (by decide))).append (shut_free (clean_hash hc))).append
    (shut_free (by decide))).append (shut_line ha (Or.inl rfl)) |>.append (shut_free (by decide))

theorem sub_clean {sub : Option Str} (hs : ∀ y, sub = some y → SubLike y) : Clean (((sub.map SubName.mk).map SubName.raw).getD []) ∧
    Clean (((sub.map SubName.mk).map SubName.keyStr).getD []) := by
  cases sub with
  | none => exact ⟨clean_nil, clean_nil⟩
  | some y => exact ⟨clean_sub (hs y rfl), (clean_sub (hs y rfl)).upper⟩

theorem lower_nl {s : Str} (h : Clean s) : '\n' ∉ lower s := by
  intro hm
  obtain ⟨c, hc, e⟩ := List.mem_map.1 hm
  have hn := lowerC_nameCharI (c := c) (by have := h c hc; simpa [nmCh, or_assoc] using this)
  rw [e] at hn
  revert hn; decide

set_option maxRecDepth 4000 in
theorem shut_found {n : Name} {sub : Option Str} (hs : ∀ y, sub = some y → SubLike y) {focus : Bool} {color : Str} (hc : '\n' ∉ color) :
    Shut (foundNameDot n (sub.map SubName.mk) focus color) := by
  obtain ⟨h1, h2⟩ := sub_clean hs
  have e : foundNameDot n (sub.map SubName.mk) focus color =
    c!"\n        {\n            \"" ++ n.keyStr ++ ((sub.map SubName.mk).map SubName.keyStr).getD [] ++ c!"\" [\n                label=\"" ++ n.raw ++
      ((sub.map SubName.mk).map SubName.raw).getD [] ++ c!"\";\n" ++ ((c!"                href=\"#" ++ lower n.keyStr ++ c!"\"") ++ [';', '\n']) ++
      ((c!"                fontcolor=\"" ++ color ++ c!"\"") ++ [';', '\n']) ++ c!"                fontsize=" ++ focusSize focus ++
      c!"; margin=0.01;\n                shape=invhouse;\n                " ++ (focusAttrs focus ++ c!"\n") ++ c!"            ]\n        }\n        " := by
    unfold foundNameDot
    simp
  have ha : Shut (focusAttrs focus ++ c!"\n") := by
    cases focus with
    | true => exact shut_free (by decide)
    | false => exact shut_line (a := c!"style=filled; fillcolor=\"#DCDEE2\"") (by decide) (Or.inl rfl)
  have hsz : '#' ∉ focusSize focus := by cases focus <;> decide
  have hl1 : '\n' ∉ c!"                href=\"#" ++ lower n.keyStr ++ c!"\"" := by
    simp only [List.mem_append, not_or]
    exact ⟨⟨by decide, lower_nl (clean_key n)⟩, by decide⟩
  have hl2 : '\n' ∉ c!"                fontcolor=\"" ++ color ++ c!"\"" := by
    simp only [List.mem_append, not_or]
    exact ⟨⟨by decide, hc⟩, by decide⟩
  rw [e]
  refine Shut.append ?_ (shut_free (by decide))
  refine Shut.append ?_ ha
  refine Shut.append ?_ (shut_free (by decide))
  refine Shut.append ?_ (shut_free hsz)
  refine Shut.append ?_ (shut_free (by decide))
  refine Shut.append ?_ (shut_line hl2 (Or.inl rfl))
  refine Shut.append ?_ (shut_line hl1 (Or.inl rfl))
  refine Shut.append ?_ (shut_free (by decide))
  refine Shut.append ?_ (shut_free (clean_hash h1))
  refine Shut.append ?_ (shut_free (clean_hash (clean_raw n)))
  refine Shut.append ?_ (shut_free (by decide))
  refine Shut.append ?_ (shut_free (clean_hash h2))
  exact (shut_free (by decide)).append (shut_free (clean_hash (clean_key n)))

theorem shut_dne {n : Name} {sub : Option Str} (hs : ∀ y, sub = some y → SubLike y) : Shut (dneNameDot n (sub.map SubName.mk)) := by
  obtain ⟨h1, h2⟩ := sub_clean hs
  unfold dneNameDot
  refine Shut.append ?_ (shut_free (by decide))
  refine Shut.append ?_ (shut_free (clean_hash h1))
  refine Shut.append ?_ (shut_free (clean_hash (clean_raw n)))
  refine Shut.append ?_ (shut_free (by decide))
  refine Shut.append ?_ (shut_free (clean_hash h2))
  exact (shut_free (by decide)).append (shut_free (clean_hash (clean_key n)))

theorem shut_fullname {p : Project} {n : Name} {sub : Option Str} (hs : ∀ y, sub = some y → SubLike y) {focus : Bool} {o : Str}
    (h : p.fullnameDot n (sub.map SubName.mk) focus = .ok o) : Shut o := by
  unfold Project.fullnameDot at h
  split at h
  · cases h; exact shut_dne hs
  · split at h
    · cases hc : p.nameColor n with
      | ok c => rw [hc] at h; cases h; exact shut_found hs (nameColor_nl hc)
      | err e => rw [hc] at h; cases h
      | panic => rw [hc] at h; cases h
    · cases h; exact shut_dne hs

theorem shut_nameDot {p : Project} {n : Name} {focus : Bool} {o : Str} (h : p.nameDot n focus = .ok o) : Shut o :=
  shut_fullname (sub := none) (by simp) h

theorem shut_subDot {p : Project} {parent s : Str} (hs : SubLike s) {o : Str} (h : p.subnameDot parent ⟨s⟩ = .ok o) : Shut o := by
  unfold Project.subnameDot at h
  split at h
  · cases h
  · cases h; exact shut_subname hs (by decide)
  · split at h
    · cases h
    · cases h; exact shut_subname hs (by decide)
    · cases h; exact shut_subname hs (by decide)

/-! ## pieces of a text -/

theorem dotRepl_shut {md : SerMd} {parent : Str} {x : Piece} {o : Str} (hx : Piece.Fine x) (hp : ∀ c, x = .plain c → c ≠ '#') (h : Gives (md.dotRepl parent) x (.ok o)) : Shut o := by
  cases x with
  | plain c =>
    have h : Res.ok o = .ok [c] := h
    cases h
    refine shut_free fun hm => hp c rfl ?_
    rw [List.mem_singleton] at hm
    exact hm.symm
  | graph a b =>
    obtain ⟨m, ho, e⟩ := h
    cases m with
    | sub m => cases ho
    | ref m => cases ho
    | dot m => cases e; exact shut_free (by decide)
  | sub s =>
    obtain ⟨m, ho, e⟩ := h
    cases m with
    | ref m => cases ho
    | dot m => cases ho
    | sub m =>
      have ho : Caps.get m.2.2 1 = some s := ho
      have hs' : SubName.fromStr s = .ok ⟨s⟩ := hx
      have e' : md.dotRepl parent (.sub m) = md.project.subnameDot parent ⟨s⟩ := by
        simp only [SerMd.dotRepl, ho, subnameOf, hs']; rfl
      rw [e'] at e
      exact shut_subDot hx e.symm
  | ref n sub =>
    obtain ⟨m, ho, e⟩ := h
    cases m with
    | sub m => cases ho
    | dot m => cases ho
    | ref m =>
      obtain ⟨h1, h2⟩ : Caps.get m.2.2 1 = some n ∧ Caps.get m.2.2 2 = sub := ho
      rcases refOf_eq hx.1 hx.2 h1 h2 with ⟨name, hn, e'⟩ | ⟨hp, e'⟩
      · have : md.dotRepl parent (.ref m) = md.project.fullnameDot name (sub.map SubName.mk) true := by simp only [SerMd.dotRepl, e']; rfl
        rw [this] at e
        exact shut_fullname hx.2 e.symm
      · have : md.dotRepl parent (.ref m) = .panic := by simp only [SerMd.dotRepl, e']; rfl
        rw [this] at e
        cases e

theorem graph_head_hash {s head body rest : Str} (h : Graph s head body rest) : '#' ∉ head := by
  obtain ⟨⟨-, ⟨d, w, rfl, hd, hw⟩, -, -⟩, -⟩ := h
  simp only [List.mem_append, not_or]
  refine ⟨⟨by decide, fun hm => ?_⟩, fun hm => ?_⟩
  · have : upperC '#' ∈ upper d := List.mem_map_of_mem hm
    rw [hd] at this
    revert this; decide
  · have := hw _ hm; revert this; decide

theorem cut_plain_mem {bol : Bool} {s : Str} {ps : List Piece} (h : Cut bol s ps) {c : Char} (hc : Piece.plain c ∈ ps) : c ∈ s := by
  rw [← cut_src h]
  exact List.mem_flatMap.2 ⟨_, hc, by simp [Piece.src]⟩

/-- What is asked of the places shown. -/
structure PlacesOk (F : ExportLibs) (md : SerMd) : Prop where
  address : ∀ fmt f l u, md.codeUrl = some fmt → '\n' ∉ f → '\n' ∉ l → F.strfmt fmt f l = some u → '\n' ∉ u
  fences : ∀ x y, md.dot = .replaceBraces x y → '#' ∉ x ∧ '#' ∉ y

theorem codeUrl_nl {F : ExportLibs} {md : SerMd} (ok : PlacesOk F md) {c : CodeLoc} (hc : '\n' ∉ c.file) {u : Str} (h : md.codeUrlOf F c = .ok (some u)) : '\n' ∉ u := by
  unfold SerMd.codeUrlOf at h
  split at h
  · cases h
  · next fmt e =>
    split at h
    · next v ev =>
      cases h
      exact ok.address fmt _ _ u e (trimBase_nl hc) (showNat_nl _) ev
    · cases h

theorem subMd_line {F : ExportLibs} {md : SerMd} (R : Readable md.project) (ok : PlacesOk F md) {parent s : Str} (hs : SubLike s) (hp : ¬ Panics parent)
    (hl : ∀ loc, Implemented md.project parent s loc → '\n' ∉ loc.file) {o : Str} (h : md.subMd F parent s = .ok o) : '<' ∈ o ∧ '\n' ∉ o := by
  have hsn := clean_nl (clean_sub hs)
  unfold SerMd.subMd at h
  rcases getImplSub_spec R parent hs hp with ⟨loc, h1, h2⟩ | ⟨h1, h2⟩
  · simp only [h1] at h
    have hf := hl loc ((h2 loc).2 rfl)
    have hn := showNat_nl loc.line
    cases hu : md.codeUrlOf F loc with
    | err e => rw [hu] at h; cases h
    | panic => rw [hu] at h; cases h
    | ok x =>
      rw [hu] at h
      cases x with
      | none =>
        cases h
        refine ⟨by simp, ?_⟩
        simp only [List.mem_append, not_or]
        exact ⟨⟨⟨⟨by decide, ⟨⟨hf, by decide⟩, hn⟩, by decide⟩, by decide⟩, hsn⟩, by decide⟩
      | some u =>
        cases h
        refine ⟨by simp, ?_⟩
        simp only [List.mem_append, not_or]
        exact ⟨⟨⟨⟨⟨⟨by decide, ⟨⟨hf, by decide⟩, hn⟩, by decide⟩, by decide⟩, codeUrl_nl ok hf hu⟩, by decide⟩, hsn⟩, by decide⟩
  · simp only [h1] at h
    cases h
    refine ⟨by simp, ?_⟩
    simp only [List.mem_append, not_or]
    exact ⟨⟨by decide, hsn⟩, by decide⟩

theorem piece_out {F : ExportLibs} {md : SerMd} (R : Readable md.project) (ok : PlacesOk F md) {parent : Str} (hp : ¬ Panics parent) {x : Piece} {o : Str} (hx : Piece.Fine x)
    (hl : ∀ s loc, x = .sub s → Implemented md.project parent s loc → '\n' ∉ loc.file) (hb : ∀ head body, x = .graph head body → '#' ∉ body)
    (h : Gives (md.repl F parent) x (.ok o)) : PieceOut x o := by
  cases x with
  | plain c =>
    have h : Res.ok o = .ok [c] := h
    cases h; rfl
  | sub s =>
    obtain ⟨m, ho, e⟩ := h
    cases m with
    | ref m => cases ho
    | dot m => cases ho
    | sub m =>
      have ho : Caps.get m.2.2 1 = some s := ho
      have e' : md.repl F parent (.sub m) = md.subMd F parent s := by simp only [SerMd.repl, ho]
      rw [e'] at e
      exact subMd_line R ok hx hp (fun loc => hl s loc rfl) e.symm
  | ref n sub =>
    obtain ⟨m, ho, e⟩ := h
    cases m with
    | sub m => cases ho
    | dot m => cases ho
    | ref m =>
      obtain ⟨h1, h2⟩ : Caps.get m.2.2 1 = some n ∧ Caps.get m.2.2 2 = sub := ho
      rcases refOf_eq hx.1 hx.2 h1 h2 with ⟨name, hn, e'⟩ | ⟨hp, e'⟩
      · have : md.repl F parent (.ref m) = md.project.nameMd name (sub.map SubName.mk) := by simp only [SerMd.repl, e']; rfl
        rw [this] at e
        exact nameMd_line hx.2 e.symm
      · have : md.repl F parent (.ref m) = .panic := by simp only [SerMd.repl, e']; rfl
        rw [this] at e
        cases e
  | graph head body =>
    obtain ⟨m, ho, e⟩ := h
    cases m with
    | sub m => cases ho
    | ref m => cases ho
    | dot m =>
      obtain ⟨rest, rfl⟩ : ∃ rest, m = dotMatch head body rest := ho
      obtain ⟨t, rest', hg⟩ := hx
      have hbody := hb head body rfl
      obtain ⟨qs, rs, hc, hf, ej⟩ := replaceAll_cut (md.dotRepl parent) body.length true body (le_refl _)
      have e1 : md.repl F parent (.dot (dotMatch head body rest)) = (do
        let d ← replaceAll (md.dotRepl parent) body.length true body
        let fence := match md.dot with
          | .ignore => (head, c!"```")
          | .removeBraces => ([], [])
          | .replaceBraces pre post => (pre, post)
        pure (fence.1 ++ c!"\n" ++ d ++ c!"\n" ++ fence.2)) := rfl
      rw [e1, ej] at e
      cases hj : joined rs with
      | err x => rw [hj] at e; cases e
      | panic => rw [hj] at e; cases e
      | ok d =>
        rw [hj] at e
        obtain ⟨os, ho, rfl⟩ := joined_ok.1 hj
        have hd : Shut os.flatten := by
          refine shut_flatten fun s hs => ?_
          obtain ⟨i, hi, rfl⟩ := List.getElem_of_mem hs
          have l1 := hf.length_eq
          have l2 := ho.length_eq
          have g1 := List.forall₂_iff_get.1 hf
          have g2 := List.forall₂_iff_get.1 ho
          have k1 := g1.2 i (by omega) (by omega)
          have k2 := g2.2 i (by omega) hi
          simp only [List.get_eq_getElem] at k1 k2
          rw [k2] at k1
          refine dotRepl_shut (cut_fine hc _ (List.getElem_mem _)) (fun c ec e => ?_) k1
          exact hbody (e ▸ cut_plain_mem hc (ec ▸ List.getElem_mem _))
        have hfence : ∀ a b : Str, (match md.dot with
          | .ignore => (head, c!"```")
          | .removeBraces => ([], [])
          | .replaceBraces pre post => (pre, post)) = (a, b) → Shut a ∧ Shut b := by
          intro a b hab
          have hfc := ok.fences
          split at hab
          · cases hab; exact ⟨shut_free (graph_head_hash hg), shut_free (by decide)⟩
          · cases hab; exact ⟨shut_free (by decide), shut_free (by decide)⟩
          · next x y hxy => cases hab; exact ⟨shut_free (hfc _ _ hxy).1, shut_free (hfc _ _ hxy).2⟩
        have hfence := hfence _ _ rfl
        cases e
        show Shut _
        exact (((hfence.1.append (shut_free (by decide))).append hd).append (shut_free (by decide))).append hfence.2

theorem replace_quiet {F : ExportLibs} {md : SerMd} (R : Readable md.project) (ok : PlacesOk F md) {fold : Char → Char} {pre : Str} (hpre : ∀ c ∈ pre, fold c ≠ fold '<')
    {parent text out : Str} (hp : ¬ Panics parent) (hl : ∀ ps s loc, Cut true text ps → Piece.sub s ∈ ps → Implemented md.project parent s loc → '\n' ∉ loc.file)
    (hb : ∀ ps head body, Cut true text ps → Piece.graph head body ∈ ps → '#' ∉ body) (ht : ∀ l ∈ lines text, ¬ NameLine fold pre l)
    (h : md.replace F parent text = .ok out) : ∀ l ∈ splitRows [] out, ¬ NameLine fold pre l := by
  obtain ⟨ps, rs, hc, hf, e⟩ := replaceAll_cut (md.repl F parent) text.length true text (le_refl _)
  unfold SerMd.replace at h
  rw [e] at h
  obtain ⟨os, ho, rfl⟩ := joined_ok.1 h
  have hout : List.Forall₂ PieceOut ps os := by
    rw [List.forall₂_iff_get]
    have l1 := hf.length_eq
    have l2 := ho.length_eq
    refine ⟨by omega, fun i h1 h2 => ?_⟩
    have k1 := (List.forall₂_iff_get.1 hf).2 i h1 (by omega)
    have k2 := (List.forall₂_iff_get.1 ho).2 i (by omega) h2
    rw [k2] at k1
    have hm : ps.get ⟨i, h1⟩ ∈ ps := List.get_mem _ _
    exact piece_out R ok hp (cut_fine hc _ hm) (fun s loc e => hl ps s loc hc (e ▸ hm)) (fun head body e => hb ps head body hc (e ▸ hm)) k1
  refine text_rows hpre hc hout [] [] (fun _ => ⟨rfl, rfl⟩) (Or.inl rfl) fun l hl => ?_
  rcases rows_lines hl with rfl | h | h
  · exact not_nameLine_nil
  · exact ht l h
  · exact fun hn => ht _ h (nameLine_chop hn)

/-! ## parts of the document -/

section
variable {fold : Char → Char} {pre : Str}

theorem headBlock_lines {s : Str} (t : Str) (e : s = t ++ c!"\n") (h : Shut s) : HeadBlock fold pre s [] := by
  subst e
  obtain ⟨i, l, h1, h2, h3⟩ := shut_rows (fold := fold) (pre := pre) [] (by simp) h
  have e := splitRows_nl t [] []
  have e := h1.symm.trans e
  obtain ⟨e1, -⟩ := List.append_inj' e rfl
  exact headBlock_quiet fun l hl => h3 l (by rw [e1]; exact hl)

/-- A part of a document. -/
def PartOut (fold : Char → Char) (pre : Str) (r : Res Unit Str) (hs : List Str) : Prop := ∀ s, r = .ok s → HeadBlock fold pre s hs

theorem written_block {rs : List (Res Unit Str)} {hss : List (List Str)} (h : List.Forall₂ (PartOut fold pre) rs hss) (ok : rs.all Res.isOk = true) :
    HeadBlock fold pre (written rs) hss.flatten := by
  induction h with
  | nil => exact headBlock_nil
  | @cons r hs rs hss h1 h2 ih =>
    rw [List.all_cons, Bool.and_eq_true] at ok
    cases r with
    | ok s => exact (h1 s rfl).append (ih ok.2)
    | err e => cases ok.1
    | panic => cases ok.1

theorem familyMd_block {p : Project} {title : Str} (ht : '\n' ∉ title) {names : List Name} {s : Str} (h : p.familyMd title names = .ok s) : HeadBlock fold pre s [] := by
  unfold Project.familyMd at h
  split at h
  · cases h
    refine headBlock_lines (c!"<b>" ++ title ++ c!":</b> <i>none</i></a><br>") (by simp) ?_
    have e : c!"<b>" ++ title ++ c!":</b> <i>none</i></a><br>\n" = (c!"<b>" ++ title ++ c!":</b> <i>none</i></a><br") ++ ['>', '\n'] := by simp
    rw [e]
    refine shut_line ?_ (Or.inr rfl)
    simp only [List.mem_append, not_or]
    exact ⟨⟨by decide, ht⟩, by decide⟩
  · cases hm : Res.mapM' (fun n => p.nameMd n none) names with
    | err e => rw [hm] at h; cases h
    | panic => rw [hm] at h; cases h
    | ok l =>
      rw [hm] at h
      cases h
      have hl : ∀ o ∈ l, '\n' ∉ o := by
        intro o ho
        obtain ⟨n, -, hn⟩ := mapM'_from hm ho
        exact (nameMd_line (sub := none) (by simp) hn).2
      have h1 : HeadBlock fold pre (c!"<b>" ++ title ++ c!":</b><br>\n") [] := by
        refine headBlock_lines (c!"<b>" ++ title ++ c!":</b><br>") (by simp) ?_
        have e : c!"<b>" ++ title ++ c!":</b><br>\n" = (c!"<b>" ++ title ++ c!":</b><br") ++ ['>', '\n'] := by simp
        rw [e]
        refine shut_line ?_ (Or.inr rfl)
        simp only [List.mem_append, not_or]
        exact ⟨⟨by decide, ht⟩, by decide⟩
      refine h1.append (k := []) ?_
      clear hm h1
      induction l with
      | nil => exact headBlock_nil
      | cons o l ih =>
        rw [List.flatMap_cons]
        refine HeadBlock.append (h := []) (k := []) ?_ (ih fun o ho => hl o (by simp [ho]))
        refine headBlock_lines (c!"<li>" ++ o ++ c!"</li>") (by simp) ?_
        have e : c!"<li>" ++ o ++ c!"</li>\n" = (c!"<li>" ++ o ++ c!"</li") ++ ['>', '\n'] := by simp
        rw [e]
        refine shut_line ?_ (Or.inr rfl)
        simp only [List.mem_append, not_or]
        exact ⟨⟨by decide, hl o (by simp)⟩, by decide⟩

theorem artifactDot_shut {p : Project} {a : Artifact} {d : Str} (h : p.artifactDot a = .ok d) : Shut d := by
  unfold Project.artifactDot at h
  cases h1 : p.nameDot a.name true with
  | err e => rw [h1] at h; cases h
  | panic => rw [h1] at h; cases h
  | ok x =>
    rw [h1] at h
    cases h2 : Res.mapM' (fun q => p.nameDot q false) a.parts with
    | err e => simp only [h2] at h; cases h
    | panic => simp only [h2] at h; cases h
    | ok y =>
      simp only [h2] at h
      cases h3 : Res.mapM' (fun q => p.nameDot q false) a.partof with
      | err e => simp only [h3] at h; cases h
      | panic => simp only [h3] at h; cases h
      | ok z =>
        simp only [h3] at h
        cases h
        have hy : Shut y.flatten := shut_flatten fun s hs => by obtain ⟨n, -, hn⟩ := mapM'_from h2 hs; exact shut_nameDot hn
        have hz : Shut z.flatten := shut_flatten fun s hs => by obtain ⟨n, -, hn⟩ := mapM'_from h3 hs; exact shut_nameDot hn
        have hc : Shut (a.connections.map fun c => connectDot c.1 c.2).flatten := shut_flatten fun s hs => by
          obtain ⟨c, -, rfl⟩ := List.mem_map.1 hs
          refine shut_free ?_
          unfold connectDot
          simp only [List.mem_append, not_or]
          exact ⟨⟨⟨⟨by decide, clean_hash (clean_key _)⟩, by decide⟩, clean_hash (clean_key _)⟩, by decide⟩
        unfold wrapDot
        refine Shut.append (Shut.append (shut_free (by decide)) ?_) (shut_free (by decide))
        exact (((shut_nameDot h1).append hy).append hz).append hc

theorem family_block {F : ExportLibs} {md : SerMd} (ok : PlacesOk F md) {a : Artifact} {s : Str} (h : md.family' a = .ok s) : HeadBlock fold pre s [] := by
  unfold SerMd.family' at h
  split at h
  · cases h1 : md.project.familyMd c!"partof" a.partof with
    | err e => rw [h1] at h; cases h
    | panic => rw [h1] at h; cases h
    | ok x =>
      rw [h1] at h
      cases h2 : md.project.familyMd c!"parts" a.parts with
      | err e => simp only [h2] at h; cases h
      | panic => simp only [h2] at h; cases h
      | ok y =>
        simp only [h2] at h
        cases h
        exact (familyMd_block (by decide) h1).append (k := []) (familyMd_block (by decide) h2)
  · cases h1 : md.project.artifactDot a with
    | err e => rw [h1] at h; cases h
    | panic => rw [h1] at h; cases h
    | ok d =>
      rw [h1] at h
      cases h
      have hfence : ∀ a b : Str, (match md.dot with
          | .replaceBraces pre post => (pre, post)
          | _ => (c!"```dot", c!"```")) = (a, b) → Shut a ∧ Shut b := by
        intro a b hab
        have hfc := ok.fences
        split at hab
        · next x y hxy => cases hab; exact ⟨shut_free (hfc _ _ hxy).1, shut_free (hfc _ _ hxy).2⟩
        · cases hab; exact ⟨shut_free (by decide), shut_free (by decide)⟩
      have hfence := hfence _ _ rfl
      unfold details
      refine headBlock_lines (c!"<details>\n<summary><b>dot-graph</b></summary>\n\n" ++ (_ ++ c!"\n" ++ d ++ c!"\n" ++ _ ++ c!"\n") ++ c!"</details>\n") (by simp; rfl) ?_
      refine Shut.append (Shut.append (shut_free (by decide)) ?_) (shut_free (by decide))
      exact ((((hfence.1.append (shut_free (by decide))).append (artifactDot_shut h1)).append (shut_free (by decide))).append hfence.2).append (shut_free (by decide))

/-- A line with something in it. -/
theorem line_block {a x : Str} (b : Str) (ha : '\n' ∉ a) (hx : '\n' ∉ x) (hb : '\n' ∉ b) : HeadBlock fold pre (a ++ x ++ (b ++ c!">\n")) [] := by
  refine headBlock_lines (a ++ x ++ (b ++ c!">")) (by simp) ?_
  have e : a ++ x ++ (b ++ c!">\n") = (a ++ x ++ b) ++ ['>', '\n'] := by simp
  rw [e]
  refine shut_line ?_ (Or.inr rfl)
  simp only [List.mem_append, not_or]
  exact ⟨⟨ha, hx⟩, hb⟩

theorem fileHtml_nl {F : ExportLibs} {md : SerMd} (ok : PlacesOk F md) {file : FilePath} (hf : '\n' ∉ file) {s : Str} (h : md.fileHtml F file = .ok s) : '\n' ∉ s := by
  unfold SerMd.fileHtml at h
  have ht := trimBase_nl (b := md.project.settings.base) hf
  cases hu : md.codeUrlOf F ⟨file, 0⟩ with
  | err e => rw [hu] at h; cases h
  | panic => rw [hu] at h; cases h
  | ok x =>
    rw [hu] at h
    cases x with
    | none => cases h; exact ht
    | some u =>
      cases h
      simp only [List.mem_append, not_or]
      exact ⟨⟨⟨⟨by decide, codeUrl_nl ok hf hu⟩, by decide⟩, ht⟩, by decide⟩

theorem codeHtml_nl {F : ExportLibs} {md : SerMd} (ok : PlacesOk F md) {c : CodeLoc} (hf : '\n' ∉ c.file) {s : Str} (h : md.codeHtml F c = .ok s) : '\n' ∉ s := by
  unfold SerMd.codeHtml at h
  have ht := trimBase_nl (b := md.project.settings.base) hf
  have hn := showNat_nl c.line
  cases hu : md.codeUrlOf F c with
  | err e => rw [hu] at h; cases h
  | panic => rw [hu] at h; cases h
  | ok x =>
    rw [hu] at h
    cases x with
    | none =>
      cases h
      simp only [List.mem_append, not_or]
      exact ⟨⟨⟨ht, by decide⟩, hn⟩, by decide⟩
    | some u =>
      cases h
      simp only [List.mem_append, not_or]
      exact ⟨⟨⟨⟨by decide, codeUrl_nl ok hf hu⟩, by decide⟩, ⟨⟨ht, by decide⟩, hn⟩, by decide⟩, by decide⟩

theorem implHtml_nl {F : ExportLibs} {md : SerMd} (ok : PlacesOk F md) {a : Artifact} (hd : ∀ d, a.impl = .done d → '\n' ∉ d)
    (hp : ∀ code loc, a.impl = .code code → code.primary = some loc → '\n' ∉ loc.file) {s : Str} (h : md.implHtml F a = .ok s) : '\n' ∉ s := by
  unfold SerMd.implHtml at h
  split at h
  · next d e => cases h; exact hd _ e
  · next c _ e => exact codeHtml_nl ok (hp _ c e rfl) h
  · cases h; decide

end

end Art
