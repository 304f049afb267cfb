import Verif.Lemmas.MdRegex
import Verif.Spec.Markdown
import Verif.Props.ExpandNames

/-! Helper lemmas: what the markdown formatter writes, line by line, and how the parser goes through it. -/

namespace Art
open Spec

theorem nameLine_iff {fold : Char → Char} {pre l : Str} : (nameLineRe fold pre).isFull l = true ↔ NameLine fold pre l := by
  rw [Re.isFull_iff, lang_nameLine]
  constructor
  · rintro ⟨p, w, n, w', h⟩; exact ⟨p, w, n, w', h.eq, h.pre, h.ws, h.name, h.ws'⟩
  · rintro ⟨p, w, n, w', h1, h2, h3, h4, h5⟩; exact ⟨p, w, n, w', ⟨h1, h2, h3, h4, h5⟩⟩

theorem fenceLine_iff {l : Str} : attrsCodeRe.isFull l = true ↔ FenceLine l := by
  rw [Re.isFull_iff]
  unfold attrsCodeRe
  constructor
  · rintro ⟨q, _, h1, ⟨x, _, hx, ⟨ar, _, h2, ⟨t, w, h3, h4, rfl⟩, rfl⟩, rfl⟩, rfl⟩
    rw [Re.lang_lit] at h1 h2
    rw [Re.lang_plus_ch] at h3
    rw [Re.lang_ws] at h4
    subst h1 h2
    obtain ⟨k, hk⟩ : ∃ k, t.length = k + 1 := ⟨t.length - 1, by have := List.length_pos_iff.2 h3.1; omega⟩
    have ht : t = List.replicate (k + 1) 't' := List.eq_replicate_iff.2 ⟨hk, fun c hc => by simpa using h3.2 c hc⟩
    refine ⟨x, k, w, h4, ?_, by rw [ht]⟩
    rcases hx with hx | ⟨y, v, hy, hv, rfl⟩
    · exact Or.inl (Re.lang_ws.1 hx)
    · rw [Re.lang_star_ch] at hy
      rw [Re.lang_plus_ch] at hv
      exact Or.inr ⟨y, v, rfl, fun hm => by simpa using hy _ hm, hv.1, hv.2⟩
  · rintro ⟨x, k, w, hw, hx, rfl⟩
    refine ⟨_, _, Re.lang_lit.2 rfl, ⟨x, _, ?_, ⟨_, _, Re.lang_lit.2 rfl, ⟨_, w, Re.lang_plus_ch.2 ⟨by simp, ?_⟩, Re.lang_ws.2 hw, rfl⟩, rfl⟩, rfl⟩, rfl⟩
    · rcases hx with hx | ⟨y, v, rfl, hy, hne, hv⟩
      · exact Or.inl (Re.lang_ws.2 hx)
      · refine Or.inr ⟨y, v, Re.lang_star_ch.2 ?_, Re.lang_plus_ch.2 ⟨hne, hv⟩, rfl⟩
        intro c hc
        simp only [bne_iff_ne, ne_eq]
        rintro rfl
        exact hy hc
    · intro c hc
      simp [List.eq_of_mem_replicate hc]

theorem endLine_iff {l : Str} : attrsEndRe.isFull l = true ↔ EndLine l := attrsEnd_iff

/-! ### the parser on lines of text -/

theorem mdLoop_append (L : Libs) (pre : Str) (st : MdSt) (l l' : List Str) :
    mdLoop L pre st (l ++ l') = (mdLoop L pre st l) >>= fun st' => mdLoop L pre st' l' := by
  induction l generalizing st with
  | nil => rfl
  | cons a l ih =>
    simp only [List.cons_append, mdLoop]
    cases mdStep L pre st a with
    | ok st' => exact ih st'
    | err e => rfl
    | panic => rfl

theorem mdStep_text {L : Libs} {pre l : Str} {st : MdSt} (h : TextLine L.fold pre l) (hf : st.fence = none) :
    mdStep L pre st l = .ok { st with other := st.other ++ [l] } := by
  obtain ⟨h1, h2, h3⟩ := h
  rw [← nameLine_iff] at h1
  rw [← endLine_iff] at h2
  rw [← fenceLine_iff] at h3
  have h1' : (nameLineRe L.fold pre).full l = none := by
    unfold Re.isFull at h1
    simpa using h1
  unfold mdStep mdOuter
  rw [hf]
  simp only [h1', h2, h3]
  rfl

theorem mdLoop_text {L : Libs} {pre : Str} {ls : List Str} (h : ∀ l ∈ ls, TextLine L.fold pre l) :
    ∀ {st : MdSt}, st.fence = none → mdLoop L pre st ls = .ok { st with other := st.other ++ ls } := by
  induction ls with
  | nil => intro st _; simp [mdLoop]
  | cons a ls ih =>
    intro st hf
    simp only [mdLoop, mdStep_text (h a (by simp)) hf]
    show mdLoop L pre { st with other := st.other ++ [a] } ls = _
    rw [ih (fun l hl => h l (by simp [hl])) (st := { st with other := st.other ++ [a] }) hf]
    simp

theorem textLine_of_noHash {fold : Char → Char} {pre l : Str} (h : '#' ∉ l) (h' : l.head? ≠ some '`') : TextLine fold pre l := by
  refine ⟨?_, ?_, ?_⟩
  · rintro ⟨p, w, n, w', rfl, _⟩; simp at h
  · rw [← endLine_iff]
    intro hm
    have := attrsEnd_head hm
    cases l with
    | nil => simp at this
    | cons c l => simp at this; subst this; simp at h
  · rw [← fenceLine_iff]
    intro hm
    exact h' (attrsCode_head hm)

theorem textLine_nil {fold : Char → Char} {pre : Str} : TextLine fold pre [] := textLine_of_noHash (by simp) (by simp)

/-! ### attributes -/

theorem name_noHash {n : Name} : '#' ∉ n.raw := name_outside n.lang (by decide)
theorem name_noNl {n : Name} : '\n' ∉ n.raw := name_outside n.lang (by decide)

theorem name_lastVisible (n : Name) (a : Str) : ∃ c, (a ++ n.raw).getLast? = some c ∧ isWS c = false := by
  obtain ⟨c, hc, hn⟩ := name_last n.lang
  exact ⟨c, by rw [List.getLast?_append, hc]; rfl, nameCharI_not_ws hn⟩

theorem lineOk_of_visible {l : Str} (h : '\n' ∉ l) (h' : ∃ c, l.getLast? = some c ∧ isWS c = false) : LineOk l := by
  obtain ⟨c, hc, hw⟩ := h'
  refine ⟨h, ?_⟩
  rw [hc]
  intro e
  injection e with e
  subst e
  revert hw
  decide

/-- Facts about the lines of the attributes. -/
structure AttrFacts (fold : Char → Char) (pre : Str) (ls : List Str) : Prop where
  ok : ∀ l ∈ ls, LineOk l
  text : ∀ l ∈ ls, TextLine fold pre l
  notEnd : ∀ l ∈ ls, codeEndRe.isFull l = false
  last : ∃ c, (joinLines ls).getLast? = some c ∧ isWS c = false

/-- The last visible character of joined lines. -/
theorem joinLines_visible {ls : List Str} {l : Str} (h : ls.getLast? = some l) (hv : ∃ c, l.getLast? = some c ∧ isWS c = false) :
    ∃ c, (joinLines ls).getLast? = some c ∧ isWS c = false := by
  obtain ⟨u, e⟩ := joinLines_last h
  obtain ⟨c, hc, hw⟩ := hv
  exact ⟨c, by rw [e, List.getLast?_append, hc]; rfl, hw⟩

theorem joinLines_flatMap {ls : List Str} (h : ls ≠ []) : ls.flatMap (fun l => l ++ ['\n']) = joinLines ls ++ ['\n'] := by
  induction ls with
  | nil => exact absurd rfl h
  | cons a ls ih =>
    by_cases hl : ls = []
    · subst hl; simp
    · rw [List.flatMap_cons, ih hl, joinLines_cons a hl]
      simp

theorem partofLines_facts {p : ISet Name} (hp : p ≠ []) (hs : sortNames p = p) (fold : Char → Char) (pre : Str) :
    AttrFacts fold pre (partofLines p) ∧ ∃ x, partofText p = .ok x ∧ trimEnd x = joinLines (partofLines p) := by
  have h1 : ∀ (n : Name) (a : Str) (c : Char), c ≠ '`' → '#' ∉ c :: a → '\n' ∉ c :: a →
      LineOk (c :: a ++ n.raw) ∧ TextLine fold pre (c :: a ++ n.raw) ∧ codeEndRe.isFull (c :: a ++ n.raw) = false := by
    intro n a c hc ha hn
    refine ⟨lineOk_of_visible ?_ (name_lastVisible n _), textLine_of_noHash ?_ ?_, ?_⟩
    · intro hm
      rcases List.mem_append.1 hm with hm | hm
      · exact hn hm
      · exact name_noNl hm
    · intro hm
      rcases List.mem_append.1 hm with hm | hm
      · exact ha hm
      · exact name_noHash hm
    · simp [hc]
    · cases hx : codeEndRe.isFull (c :: a ++ n.raw) with
      | false => rfl
      | true =>
        have := codeEnd_head hx
        simp at this
        exact absurd this hc
  by_cases hone : ∃ n, p = [n]
  · obtain ⟨n, rfl⟩ := hone
    have hn := h1 n c!"artof: " 'p' (by decide) (by decide) (by decide)
    refine ⟨⟨?_, ?_, ?_, ?_⟩, c!"partof: " ++ n.raw, rfl, ?_⟩
    · intro l hl; rw [List.mem_singleton.1 hl]; exact hn.1
    · intro l hl; rw [List.mem_singleton.1 hl]; exact hn.2.1
    · intro l hl; rw [List.mem_singleton.1 hl]; exact hn.2.2
    · show ∃ c, (joinLines [c!"partof: " ++ n.raw]).getLast? = some c ∧ _
      rw [joinLines_one]
      exact name_lastVisible n _
    · show _ = joinLines [c!"partof: " ++ n.raw]
      rw [joinLines_one]
      exact trimEnd_eq_self (name_lastVisible n _)
  · have e1 : partofLines p = c!"partof:" :: p.map (fun n => c!"- " ++ n.raw) := by
      unfold partofLines
      split
      · exact absurd ⟨_, rfl⟩ hone
      · rfl
    have e2 : partofText p = .ok (c!"partof:\n" ++ p.flatMap (fun n => c!"- " ++ n.raw ++ ['\n'])) := by
      unfold partofText
      split
      · exact absurd rfl hp
      · exact absurd ⟨_, rfl⟩ hone
      · rw [hs]
    have hm := fun n : Name => h1 n c!" " '-' (by decide) (by decide) (by decide)
    have hne : p.map (fun n => c!"- " ++ n.raw) ≠ [] := by simpa using hp
    have hlast : ∃ c, (joinLines (partofLines p)).getLast? = some c ∧ isWS c = false := by
      obtain ⟨init, n, rfl⟩ : ∃ t d, p = t ++ [d] := ⟨p.dropLast, p.getLast hp, (List.dropLast_append_getLast hp).symm⟩
      refine joinLines_visible (l := c!"- " ++ n.raw) ?_ (name_lastVisible n _)
      rw [e1, List.getLast?_cons_of_ne_nil hne, List.map_append, List.getLast?_append]
      rfl
    have hkey : LineOk c!"partof:" ∧ TextLine fold pre c!"partof:" ∧ codeEndRe.isFull c!"partof:" = false :=
      ⟨by unfold LineOk; decide, textLine_of_noHash (by decide) (by decide), by decide⟩
    refine ⟨⟨?_, ?_, ?_, hlast⟩, _, e2, ?_⟩
    · intro l hl
      rw [e1] at hl
      rcases List.mem_cons.1 hl with rfl | hl
      · exact hkey.1
      · obtain ⟨n, _, rfl⟩ := List.mem_map.1 hl; exact (hm n).1
    · intro l hl
      rw [e1] at hl
      rcases List.mem_cons.1 hl with rfl | hl
      · exact hkey.2.1
      · obtain ⟨n, _, rfl⟩ := List.mem_map.1 hl; exact (hm n).2.1
    · intro l hl
      rw [e1] at hl
      rcases List.mem_cons.1 hl with rfl | hl
      · exact hkey.2.2
      · obtain ⟨n, _, rfl⟩ := List.mem_map.1 hl; exact (hm n).2.2
    · have e3 : c!"partof:\n" ++ p.flatMap (fun n => c!"- " ++ n.raw ++ ['\n']) = joinLines (partofLines p) ++ ['\n'] := by
        rw [← joinLines_flatMap (by rw [e1]; simp), e1, List.flatMap_cons, List.flatMap_map]
        rfl
      rw [e3, trimEnd_append_ws _ _ (by decide), trimEnd_eq_self hlast]

theorem doneLine_facts {L : Libs} {r : ArtifactRaw} (hy : YamlOk L r) {d : Str} (hd : r.done = some d) (pre : Str) :
    LineOk (L.yamlDone d) ∧ TextLine L.fold pre (L.yamlDone d) ∧ codeEndRe.isFull (L.yamlDone d) = false := by
  obtain ⟨u, hu⟩ := hy.key d hd
  have hhead : (L.yamlDone d).head? = some 'd' := by rw [← hu]; rfl
  refine ⟨lineOk_of_visible (hy.oneLine d hd) (hy.visible d hd), ⟨?_, ?_, ?_⟩, ?_⟩
  · rintro ⟨p, w, n, w', h1, h2, h3, h4, h5⟩
    have hl : IsNameLine L.fold pre (L.yamlDone d) p w n w' := ⟨h1, h2, h3, h4, h5⟩
    have hq := hy.quoted d hd hl.hash
    obtain ⟨c, hc, hcn⟩ := hl.last
    rw [trimEnd_eq_self (hy.visible d hd), hq] at hc
    injection hc with hc
    subst hc
    revert hcn
    decide
  · rw [← endLine_iff]
    intro h
    rw [attrsEnd_head h] at hhead
    cases hhead
  · rw [← fenceLine_iff]
    intro h
    rw [attrsCode_head h] at hhead
    cases hhead
  · cases hx : codeEndRe.isFull (L.yamlDone d) with
    | false => rfl
    | true => rw [codeEnd_head hx] at hhead; cases hhead

theorem nil_facts {fold : Char → Char} {pre : Str} : LineOk [] ∧ TextLine fold pre [] ∧ codeEndRe.isFull [] = false :=
  ⟨by unfold LineOk; decide, textLine_nil, by decide⟩

/-- The text of the attributes, as built by the formatter. -/
def attrText (L : Libs) (r : ArtifactRaw) : Res Unit Str := do
  let out := match r.done with
    | some d => L.yamlDone d ++ c!"\n\n"
    | none => []
  match r.partof with
    | some l => do let p ← partofText l; pure (out ++ p)
    | none => pure out

theorem attrLines_facts {L : Libs} {pre : Str} {r : ArtifactRaw} (h : RawOk L pre r) (hne : (r.done.isSome || r.partof.isSome) = true) :
    AttrFacts L.fold pre (attrLines L r) ∧ attrLines L r ≠ [] ∧ ∃ x, attrText L r = .ok x ∧ trimEnd x = joinLines (attrLines L r) := by
  obtain ⟨done, partof, text⟩ := r
  cases done with
  | none =>
    cases partof with
    | none => simp at hne
    | some p =>
      obtain ⟨h1, h2, h3⟩ := h.partof p rfl
      obtain ⟨hf, x, hx, ht⟩ := partofLines_facts h1 h3 L.fold pre
      refine ⟨hf, ?_, x, ?_, ht⟩
      · show partofLines p ≠ []
        unfold partofLines; split <;> simp
      · unfold attrText; simp only [hx]; rfl
  | some d =>
    have hd := doneLine_facts h.yaml (d := d) rfl pre
    have hv := h.yaml.visible d rfl
    cases partof with
    | none =>
      refine ⟨⟨?_, ?_, ?_, ?_⟩, by simp [attrLines], L.yamlDone d ++ c!"\n\n", rfl, ?_⟩
      · intro l hl; rw [List.mem_singleton.1 hl]; exact hd.1
      · intro l hl; rw [List.mem_singleton.1 hl]; exact hd.2.1
      · intro l hl; rw [List.mem_singleton.1 hl]; exact hd.2.2
      · show ∃ c, (joinLines [_]).getLast? = some c ∧ _
        rw [joinLines_one]; exact hv
      · show _ = joinLines [_]
        rw [joinLines_one, trimEnd_append_ws _ _ (by decide), trimEnd_eq_self hv]
    | some p =>
      obtain ⟨h1, h2, h3⟩ := h.partof p rfl
      obtain ⟨hf, x, hx, ht⟩ := partofLines_facts h1 h3 L.fold pre
      have hpn : partofLines p ≠ [] := by unfold partofLines; split <;> simp
      have hj : joinLines (attrLines L ⟨some d, some p, text⟩) = L.yamlDone d ++ c!"\n\n" ++ joinLines (partofLines p) := by
        show joinLines (L.yamlDone d :: [] :: partofLines p) = _
        rw [joinLines_cons _ (by simp), joinLines_cons _ hpn]
        simp
      have hall : ∀ l ∈ attrLines L ⟨some d, some p, text⟩, LineOk l ∧ TextLine L.fold pre l ∧ codeEndRe.isFull l = false := by
        intro l hl
        have hl : l ∈ L.yamlDone d :: [] :: partofLines p := hl
        rcases List.mem_cons.1 hl with rfl | hl
        · exact hd
        · rcases List.mem_cons.1 hl with rfl | hl
          · exact nil_facts
          · exact ⟨hf.ok l hl, hf.text l hl, hf.notEnd l hl⟩
      have hjl := hf.last
      refine ⟨⟨fun l hl => (hall l hl).1, fun l hl => (hall l hl).2.1, fun l hl => (hall l hl).2.2, ?_⟩, by simp [attrLines],
        L.yamlDone d ++ c!"\n\n" ++ x, ?_, ?_⟩
      · rw [hj]
        obtain ⟨c, hc, hw⟩ := hjl
        exact ⟨c, by rw [List.getLast?_append, hc]; rfl, hw⟩
      · unfold attrText; simp only [hx]; rfl
      · rw [hj, trimEnd_append _ ?_, ht]
        rw [ht]
        obtain ⟨c, hc, _⟩ := hjl
        intro e
        rw [e] at hc
        simp at hc

/-! ### what is written -/

/-- The line opening an attribute block. -/
def openLine : Option Str → Str
  | none => c!"```art"
  | some p => c!"```" ++ p ++ c!" art"

/-- The attribute lines with their markers. -/
def attrChunk (a : MdAttrs) (ls : List Str) : List Str :=
  match a with
  | .hashes => ls ++ [c!"###"]
  | .code q => openLine q :: (ls ++ [c!"```"])

theorem pushAttrs_eq' (L : Libs) (a : MdAttrs) (out : Str) (r : ArtifactRaw) :
    pushAttrs L a out r = (attrText L r) >>= fun x => pure (trimEnd (out ++ attrsOpen a ++ x) ++ attrsClose a) := by
  unfold pushAttrs attrText
  cases r.done with
  | none =>
    cases r.partof with
    | none => show Res.ok _ = Res.ok _; simp
    | some p => cases hp : partofText p <;> simp only [hp, List.nil_append] <;> rfl
  | some d =>
    cases r.partof with
    | none => simp only [List.append_assoc]; rfl
    | some p => cases hp : partofText p <;> simp only [hp, List.append_assoc] <;> rfl

theorem joinLines_ne_nil {ls : List Str} (h : ∃ c, (joinLines ls).getLast? = some c ∧ isWS c = false) : joinLines ls ≠ [] := by
  obtain ⟨c, hc, _⟩ := h
  intro e
  rw [e] at hc
  simp at hc

theorem pushAttrs_eq {L : Libs} {pre : Str} {r : ArtifactRaw} (h : RawOk L pre r) (hne : (r.done.isSome || r.partof.isSome) = true)
    (a : MdAttrs) (out : Str) : pushAttrs L a out r = .ok (out ++ joinLines (attrChunk a (attrLines L r)) ++ ['\n']) := by
  obtain ⟨hf, hn, x, hx, ht⟩ := attrLines_facts h hne
  have htn : trimEnd x ≠ [] := by rw [ht]; exact joinLines_ne_nil hf.last
  rw [pushAttrs_eq', hx]
  show Res.ok _ = _
  rw [trimEnd_append _ htn, ht]
  congr 1
  cases a with
  | hashes =>
    show out ++ [] ++ _ ++ _ = _
    unfold attrChunk
    rw [joinLines_append hn (by simp)]
    simp [attrsClose]
  | code q =>
    unfold attrChunk
    simp only
    rw [joinLines_cons _ (by simp), joinLines_append hn (by simp)]
    cases q <;> simp [attrsClose, attrsOpen, openLine]

/-- The lines of the text of an artifact. -/
def rawTextLines (r : ArtifactRaw) : List Str :=
  match r.text with
  | some t => lines t
  | none => []

theorem rawTextLines_none {r : ArtifactRaw} (h : r.text = none) : rawTextLines r = [] := by unfold rawTextLines; rw [h]
theorem rawTextLines_some {r : ArtifactRaw} {t : Str} (h : r.text = some t) : rawTextLines r = lines t := by unfold rawTextLines; rw [h]

/-- All lines of one artifact. -/
def bodyLines (L : Libs) (pre : Str) (a : MdAttrs) (n : Name) (r : ArtifactRaw) : List Str :=
  (pre ++ c!"# " ++ n.raw) ::
    ((if r.done.isSome || r.partof.isSome then attrChunk a (attrLines L r) else []) ++
      rawTextLines r)

/-- Facts about the lines of a text. -/
theorem text_facts' {t : Str} (hne : t ≠ []) (hcl : cleanText t = t) (hcrlf : ¬ c!"\r\n" <:+: t) :
    lines t ≠ [] ∧ (∀ l ∈ lines t, LineOk l) ∧ joinLines (lines t) = trimEnd t ∧ trimEnd t ≠ [] := by
  have htn : trimEnd t ≠ [] := by
    intro e
    have := hcl
    unfold cleanText at this
    rw [e] at this
    exact hne this.symm
  obtain ⟨ls, hnel, hnl, e⟩ := exists_lines (trimEnd t)
  obtain ⟨w, hw, et⟩ := trimEnd_split t
  obtain ⟨c, hc, hcw⟩ := trimEnd_last' htn
  -- the last line ends visibly
  have hlast : ∃ l, ls.getLast? = some l := by
    cases hh : ls.getLast? with
    | none => simp at hh; exact absurd hh hnel
    | some l => exact ⟨l, rfl⟩
  obtain ⟨l0, hl0⟩ := hlast
  have hl0v : l0.getLast? = some c := by
    obtain ⟨u, eu⟩ := joinLines_last hl0
    rw [e] at hc
    rw [eu, List.getLast?_append] at hc
    cases hx : l0.getLast? with
    | some d => rw [hx] at hc; simpa using hc
    | none =>
      exfalso
      have hnil : l0 = [] := by simpa using hx
      subst hnil
      -- then the trimmed text ends with a newline or is empty
      obtain ⟨init, rfl⟩ : ∃ t, ls = t ++ [[]] := by
        rw [List.getLast?_eq_some_iff] at hl0; exact hl0
      by_cases hi : init = []
      · subst hi
        simp at e
        exact htn e
      · rw [joinLines_append hi (by simp)] at e
        obtain ⟨c', hc', hw'⟩ := trimEnd_last' htn
        rw [e, joinLines_one, List.getLast?_append] at hc'
        simp at hc'
        subst hc'
        revert hw'
        decide
  have hok : ∀ l ∈ ls, LineOk l := by
    intro l hl
    refine ⟨hnl l hl, ?_⟩
    intro hcr
    obtain ⟨init, rfl⟩ : ∃ t, ls = t ++ [l0] := by
      rw [List.getLast?_eq_some_iff] at hl0; exact hl0
    rcases List.mem_append.1 hl with hl | hl
    · have hin : l ++ ['\n'] <:+: joinLines (init ++ [l0]) := mem_joinLines_infix (by simpa using hl)
      obtain ⟨x, rfl⟩ : ∃ x, l = x ++ ['\r'] := by
        rw [List.getLast?_eq_some_iff] at hcr; exact hcr
      apply hcrlf
      obtain ⟨u, v, euv⟩ := hin
      refine ⟨u ++ x, v ++ w, ?_⟩
      rw [et, e, ← euv]
      simp
    · rw [List.mem_singleton.1 hl, hl0v] at hcr
      injection hcr with hcr
      subst hcr
      revert hcw
      decide
  have hne0 : ls.getLast? ≠ some [] := by
    rw [hl0]
    intro e0
    injection e0 with e0
    subst e0
    simp at hl0v
  have hlines : lines t = ls := by
    unfold cleanText at hcl
    simp only at hcl
    split at hcl
    · rw [← hcl, e]
      have : joinLines ls ++ ['\n'] = joinLines (ls ++ [[]]) := by
        rw [joinLines_append hnel (by simp), joinLines_one]
      clear hc hl0 hl0v hnl e et htn hcl hne0 hne hcrlf
      induction ls with
      | nil => exact absurd rfl hnel
      | cons a ls ih =>
        by_cases hls : ls = []
        · subst hls
          rw [joinLines_one, show ('\n' :: [] : Str) = '\n' :: [] from rfl, lines_cons (hok a (by simp))]
          rfl
        · rw [joinLines_cons a hls, List.append_assoc, List.cons_append, lines_cons (hok a (by simp)),
            ih hls (fun x hx => hok x (by simp [hx])) (by rw [joinLines_append hls (by simp), joinLines_one])]
    · rw [← hcl, e]
      exact lines_joinLines hok hne0
  rw [hlines]
  exact ⟨hnel, hok, e.symm, htn⟩

theorem text_facts {fold : Char → Char} {pre t : Str} (h : TextOk fold pre t) :
    lines t ≠ [] ∧ (∀ l ∈ lines t, LineOk l) ∧ joinLines (lines t) = trimEnd t ∧ trimEnd t ≠ [] := text_facts' h.ne h.clean h.crlf

theorem visible_hashes : ∃ c, (c!"###").getLast? = some c ∧ isWS c = false := ⟨'#', by decide, by decide⟩
theorem visible_code : ∃ c, (c!"```").getLast? = some c ∧ isWS c = false := ⟨'`', by decide, by decide⟩

theorem getLast?_append_one {α : Type _} (l : List α) (a : α) : (l ++ [a]).getLast? = some a := by
  rw [List.getLast?_append]; rfl

theorem attrChunk_last (a : MdAttrs) (ls : List Str) : ∃ l, (attrChunk a ls).getLast? = some l ∧ (∃ c, l.getLast? = some c ∧ isWS c = false) := by
  cases a with
  | hashes => exact ⟨_, getLast?_append_one _ _, visible_hashes⟩
  | code q =>
    refine ⟨c!"```", ?_, visible_code⟩
    unfold attrChunk
    simp only
    rw [List.getLast?_cons_of_ne_nil (by simp), getLast?_append_one]

theorem attrChunk_ne (a : MdAttrs) (ls : List Str) : attrChunk a ls ≠ [] := by cases a <;> simp [attrChunk]

/-- The lines of an artifact end visibly. -/
theorem bodyLines_visible {L : Libs} {pre : Str} {r : ArtifactRaw} (h : RawOk L pre r) (a : MdAttrs) (n : Name) :
    ∃ c, (joinLines (bodyLines L pre a n r)).getLast? = some c ∧ isWS c = false := by
  unfold bodyLines
  cases ht : r.text with
  | none =>
    rw [rawTextLines_none ht, List.append_nil]
    split
    · obtain ⟨l, hl, hv⟩ := attrChunk_last a (attrLines L r)
      exact joinLines_visible (by rw [List.getLast?_cons_of_ne_nil (attrChunk_ne _ _)]; exact hl) hv
    · rw [joinLines_one]
      exact name_lastVisible n _
  | some t =>
    obtain ⟨h1, _, h3, h4⟩ := text_facts (h.text t ht)
    rw [rawTextLines_some ht, ← List.cons_append, joinLines_append (by simp) h1, h3]
    obtain ⟨c, hc, hw⟩ := trimEnd_last' h4
    exact ⟨c, by rw [List.getLast?_append, List.getLast?_cons_of_ne_nil h4, hc]; rfl, hw⟩

theorem pushArtifact_eq {L : Libs} {pre : Str} {r : ArtifactRaw} (h : RawOk L pre r) (a : MdAttrs) (out : Str) (n : Name) :
    pushArtifact L pre a out n r = .ok (out ++ joinLines (bodyLines L pre a n r) ++ c!"\n\n\n") := by
  have hv := bodyLines_visible h a n
  have hbn : trimEnd (joinLines (bodyLines L pre a n r)) ≠ [] := by
    rw [trimEnd_eq_self hv]; exact joinLines_ne_nil hv
  -- the state before the text
  have hhead : ∃ w, AllWS w ∧ (if r.done.isSome || r.partof.isSome then pushAttrs L a (out ++ pre ++ c!"# " ++ n.raw ++ ['\n']) r
        else pure (out ++ pre ++ c!"# " ++ n.raw ++ ['\n']) : Res Unit Str) =
      .ok (out ++ joinLines ((pre ++ c!"# " ++ n.raw) ::
        (if r.done.isSome || r.partof.isSome then attrChunk a (attrLines L r) else [])) ++ ['\n']) := by
    refine ⟨[], by simp [AllWS], ?_⟩
    split
    · rename_i hd
      rw [pushAttrs_eq h hd]
      rw [joinLines_cons _ (attrChunk_ne _ _)]
      simp
    · rw [joinLines_one]
      show Res.ok _ = _
      simp
  obtain ⟨_, _, hhead⟩ := hhead
  have hp : pushArtifact L pre a out n r = (if r.done.isSome || r.partof.isSome then
        pushAttrs L a (out ++ pre ++ c!"# " ++ n.raw ++ ['\n']) r else pure (out ++ pre ++ c!"# " ++ n.raw ++ ['\n']) : Res Unit Str) >>=
      fun out => pure (trimEnd (match r.text with | some t => out ++ t | none => out) ++ c!"\n\n\n") := by
    unfold pushArtifact
    simp only
    split <;> rfl
  rw [hp, hhead]
  show Res.ok _ = _
  congr 2
  cases ht : r.text with
  | none =>
    have e : bodyLines L pre a n r = (pre ++ c!"# " ++ n.raw) ::
        (if r.done.isSome || r.partof.isSome then attrChunk a (attrLines L r) else []) := by
      unfold bodyLines; rw [rawTextLines_none ht]; simp
    rw [← e]
    simp only
    rw [trimEnd_append_ws _ _ (by decide), trimEnd_append _ hbn, trimEnd_eq_self hv]
  | some t =>
    obtain ⟨h1, _, h3, h4⟩ := text_facts (h.text t ht)
    have e : bodyLines L pre a n r = ((pre ++ c!"# " ++ n.raw) ::
        (if r.done.isSome || r.partof.isSome then attrChunk a (attrLines L r) else [])) ++ lines t := by
      unfold bodyLines; rw [rawTextLines_some ht]; simp
    simp only
    rw [trimEnd_append _ h4, e, joinLines_append (by simp) h1, h3]
    simp

/-- All lines of a file: the artifacts are separated by two empty lines. -/
def fileLines (L : Libs) (pre : Str) (a : MdAttrs) : IMap Name ArtifactRaw → List Str
  | [] => []
  | [(n, r)] => bodyLines L pre a n r
  | (n, r) :: m => bodyLines L pre a n r ++ [[], []] ++ fileLines L pre a m

theorem fileLines_cons (L : Libs) (pre : Str) (a : MdAttrs) (n : Name) (r : ArtifactRaw) {m : IMap Name ArtifactRaw} (h : m ≠ []) :
    fileLines L pre a ((n, r) :: m) = bodyLines L pre a n r ++ [[], []] ++ fileLines L pre a m := by
  cases m with
  | nil => exact absurd rfl h
  | cons x m => rfl

theorem bodyLines_ne (L : Libs) (pre : Str) (a : MdAttrs) (n : Name) (r : ArtifactRaw) : bodyLines L pre a n r ≠ [] := by
  simp [bodyLines]

theorem fileLines_ne (L : Libs) (pre : Str) (a : MdAttrs) {m : IMap Name ArtifactRaw} (h : m ≠ []) : fileLines L pre a m ≠ [] := by
  cases m with
  | nil => exact absurd rfl h
  | cons x m =>
    by_cases hm : m = []
    · subst hm; exact bodyLines_ne _ _ _ _ _
    · rw [fileLines_cons _ _ _ _ _ hm]; simp [bodyLines_ne]

theorem pushAll_eq {L : Libs} {pre : Str} (a : MdAttrs) {m : IMap Name ArtifactRaw} (h : ∀ x ∈ m, RawOk L pre x.2) (hne : m ≠ []) :
    ∀ out, pushAll L pre a out m = .ok (out ++ joinLines (fileLines L pre a m) ++ c!"\n\n\n") := by
  induction m with
  | nil => exact absurd rfl hne
  | cons x m ih =>
    obtain ⟨n, r⟩ := x
    intro out
    simp only [pushAll]
    rw [pushArtifact_eq (h (n, r) (by simp))]
    show pushAll L pre a _ m = _
    by_cases hm : m = []
    · subst hm
      rfl
    · rw [ih (fun x hx => h x (by simp [hx])) hm, fileLines_cons _ _ _ _ _ hm,
        List.append_assoc (bodyLines L pre a n r), joinLines_append (bodyLines_ne _ _ _ _ _) (by simp)]
      congr 1
      have : joinLines ([[], []] ++ fileLines L pre a m) = c!"\n\n" ++ joinLines (fileLines L pre a m) := by
        show joinLines ([] :: [] :: fileLines L pre a m) = _
        rw [joinLines_cons _ (by simp), joinLines_cons _ (fileLines_ne _ _ _ hm)]
        rfl
      rw [this]
      simp

theorem fileLines_visible {L : Libs} {pre : Str} (a : MdAttrs) {m : IMap Name ArtifactRaw} (h : ∀ x ∈ m, RawOk L pre x.2) (hne : m ≠ []) :
    ∃ c, (joinLines (fileLines L pre a m)).getLast? = some c ∧ isWS c = false := by
  induction m with
  | nil => exact absurd rfl hne
  | cons x m ih =>
    obtain ⟨n, r⟩ := x
    by_cases hm : m = []
    · subst hm
      exact bodyLines_visible (h (n, r) (by simp)) a n
    · obtain ⟨c, hc, hw⟩ := ih (fun x hx => h x (by simp [hx])) hm
      rw [fileLines_cons _ _ _ _ _ hm, joinLines_append (by simp) (fileLines_ne _ _ _ hm)]
      refine ⟨c, ?_, hw⟩
      rw [List.getLast?_append, List.getLast?_cons_of_ne_nil, hc]
      · rfl
      · intro e; rw [e] at hc; simp at hc

/-- What is written, line by line. -/
theorem toMarkdown_eq {L : Libs} {pre : Str} (a : MdAttrs) {m : IMap Name ArtifactRaw} (h : ∀ x ∈ m, RawOk L pre x.2) :
    toMarkdown L pre a m = .ok (joinLines (fileLines L pre a m)) := by
  unfold toMarkdown
  by_cases hm : m = []
  · subst hm; rfl
  · rw [pushAll_eq a h hm []]
    show Res.ok _ = _
    rw [List.nil_append, trimEnd_append_ws _ _ (by decide), trimEnd_eq_self (fileLines_visible a h hm)]

end Art
