import Verif.Lemmas.Markdown

/-! Helper lemmas: the parser on the lines of one written artifact. -/

namespace Art
open Spec

theorem expandNames_raw (n : Name) : expandNames n.raw = .ok [n] := by
  rw [C06_expand_iff]
  have hout : ∀ c : Char, nameCharI c = false ∧ c ≠ '-' → c ∉ n.raw := fun c hc => name_outside n.lang hc
  have hplain : Plain n.raw := by
    intro c hc
    refine ⟨?_, ?_, ?_, ?_, ?_, ?_⟩ <;> rintro rfl <;> exact hout _ (by decide) hc
  have hb : noBlank n.raw = n.raw := by
    unfold noBlank
    rw [List.filter_eq_self]
    intro c hc
    have := hplain c hc
    simp [this]
  refine ⟨[n.raw], [n], ?_, by simp [Name.fromStr_raw_self], rfl⟩
  rw [hb]
  have := Denotes.last n.raw hplain
  unfold word at this
  rwa [if_neg (name_ne_nil n.lang)] at this

theorem namesSeqDe_raw (l out : ISet Name) (h : ISet.Nodup (out ++ l)) : namesSeqDe (l.map Name.raw) out = .ok (out ++ l) := by
  induction l generalizing out with
  | nil => simp [namesSeqDe]
  | cons n l ih =>
    simp only [List.map_cons, namesSeqDe, expandNames_raw]
    show namesSeqDe (l.map Name.raw) (ISet.extend out [n]) = _
    have e : out ++ n :: l = (out ++ [n]) ++ l := by simp
    have h1 : ISet.Nodup (out ++ [n]) := by
      rw [e] at h
      unfold ISet.Nodup at *
      rw [List.map_append] at h
      exact (List.nodup_append.1 h).1
    rw [ISet.extend_append _ _ h1, ih _ (by rw [← e]; exact h), e]

theorem namesRawDe_doc {p : ISet Name} (h : ISet.Nodup p) : namesRawDe (partofDoc p) = .ok p := by
  unfold partofDoc
  split
  · exact expandNames_raw _
  · have := namesSeqDe_raw p [] (by simpa using h)
    simpa [namesRawDe] using this

/-- Put the artifact being read. -/
def flush (L : Libs) (st : MdSt) : Res LoadErr (IMap Name ArtifactRaw) :=
  match st.name with
  | some n => insertFromParts L st.out n st.attrs st.other
  | none => .ok st.out

theorem mdStep_heading {L : Libs} {pre : Str} {st : MdSt} {m : IMap Name ArtifactRaw} (hf : st.fence = none) (h : flush L st = .ok m) (n : Name) :
    mdStep L pre st (pre ++ c!"# " ++ n.raw) = .ok ⟨m, some n, none, [], none⟩ := by
  have hl : IsNameLine L.fold pre (pre ++ c!"# " ++ n.raw) pre c!" " n.raw [] :=
    ⟨by simp, rfl, by unfold AllWS; decide, n.lang, by simp [AllWS]⟩
  unfold mdStep mdOuter
  rw [hf]
  simp only [full_nameLine hl]
  show mdNameLine L st n.raw = _
  unfold mdNameLine
  unfold flush at h
  cases hn : st.name with
  | none =>
    rw [hn] at h
    simp only at h
    cases h
    simp only [Name.fromStr_raw_self]
    rfl
  | some k =>
    rw [hn] at h
    simp only at h
    simp only [h, Name.fromStr_raw_self]
    rfl

/-- Inside a code block, lines are collected. -/
theorem mdLoop_fence {L : Libs} {pre : Str} {ls : List Str} (h : ∀ l ∈ ls, codeEndRe.isFull l = false) :
    ∀ {st : MdSt} {o : Str} {acc : List Str}, st.fence = some (o, acc) →
      mdLoop L pre st ls = .ok { st with fence := some (o, acc ++ ls) } := by
  induction ls with
  | nil => intro st o acc hf; simp [mdLoop, ← hf]
  | cons a ls ih =>
    intro st o acc hf
    have e : mdStep L pre st a = .ok { st with fence := some (o, acc ++ [a]) } := by
      unfold mdStep
      rw [hf]
      simp only [h a (by simp)]
      rfl
    simp only [mdLoop, e]
    show mdLoop L pre { st with fence := some (o, acc ++ [a]) } ls = _
    rw [ih (fun l hl => h l (by simp [hl])) (st := { st with fence := some (o, acc ++ [a]) }) rfl]
    simp

theorem openLine_facts {pre : Str} {a : MdAttrs} (hs : SettingsOk pre a) {q : Option Str} (ha : a = .code q) (fold : Char → Char) :
    ¬ NameLine fold pre (openLine q) ∧ ¬ EndLine (openLine q) ∧ FenceLine (openLine q) ∧ LineOk (openLine q) := by
  cases q with
  | none =>
    refine ⟨?_, ?_, fenceLine_iff.1 (by decide), by unfold LineOk; decide⟩
    · rintro ⟨p, w, n, w', h, _⟩
      have : '#' ∈ openLine none := by rw [h]; simp
      revert this; decide
    · rw [← endLine_iff]; decide
  | some p =>
    have hp := hs.attrs p ha
    refine ⟨?_, ?_, fenceLine_iff.1 (attrsCode_open p hp), lineOk_of_visible ?_ ⟨'t', ?_, by decide⟩⟩
    · have := @not_nameLine_of_tail fold pre (c!"```" ++ p) ' ' c!"art" (by decide) (by decide) (by decide)
      rw [← nameLine_iff, Re.isFull_iff, lang_nameLine]
      exact this
    · rw [← endLine_iff]
      intro h
      have := attrsEnd_head h
      simp [openLine] at this
    · intro hm
      unfold openLine at hm
      rcases List.mem_append.1 hm with hm | hm
      · rcases List.mem_append.1 hm with hm | hm
        · revert hm; decide
        · exact hp hm
      · revert hm; decide
    · unfold openLine
      rw [List.getLast?_append]
      rfl

theorem hashes_facts {fold : Char → Char} {pre : Str} : ¬ NameLine fold pre c!"###" ∧ EndLine c!"###" := by
  constructor
  · rintro ⟨p, w, n, w', h1, h2, h3, h4, h5⟩
    have hl : IsNameLine fold pre c!"###" p w n w' := ⟨h1, h2, h3, h4, h5⟩
    obtain ⟨c, hc, hcn⟩ := hl.last
    have : (trimEnd c!"###").getLast? = some '#' := by decide
    rw [this] at hc
    injection hc with hc
    subst hc
    revert hcn; decide
  · exact endLine_iff.1 (by decide)

/-- Reading the attributes. -/
theorem mdLoop_attrs {L : Libs} {pre : Str} {a : MdAttrs} (hs : SettingsOk pre a) {ls : List Str} (h : AttrFacts L.fold pre ls)
    (m : IMap Name ArtifactRaw) (n : Name) :
    mdLoop L pre ⟨m, some n, none, [], none⟩ (attrChunk a ls) = .ok ⟨m, some n, some (joinLines ls), [], none⟩ := by
  cases a with
  | hashes =>
    unfold attrChunk
    simp only
    rw [mdLoop_append, mdLoop_text h.text rfl]
    show mdLoop L pre ⟨m, some n, none, [] ++ ls, none⟩ [c!"###"] = _
    obtain ⟨h1, h2⟩ := @hashes_facts L.fold pre
    rw [← nameLine_iff] at h1
    have h1' : (nameLineRe L.fold pre).full c!"###" = none := by
      unfold Re.isFull at h1
      simpa using h1
    rw [← endLine_iff] at h2
    have e : mdStep L pre ⟨m, some n, none, [] ++ ls, none⟩ c!"###" = .ok ⟨m, some n, some (joinLines ls), [], none⟩ := by
      unfold mdStep mdOuter
      simp only [h1', h2]
      rfl
    simp only [mdLoop, e]
    rfl
  | code q =>
    obtain ⟨h1, h2, h3, _⟩ := openLine_facts hs rfl L.fold
    rw [← nameLine_iff] at h1
    have h1' : (nameLineRe L.fold pre).full (openLine q) = none := by
      unfold Re.isFull at h1
      simpa using h1
    rw [← endLine_iff] at h2
    rw [← fenceLine_iff] at h3
    have e : mdStep L pre ⟨m, some n, none, [], none⟩ (openLine q) = .ok ⟨m, some n, none, [], some (openLine q, [])⟩ := by
      unfold mdStep mdOuter
      simp only [h1', h2, h3]
      rfl
    unfold attrChunk
    simp only [mdLoop, e]
    show mdLoop L pre ⟨m, some n, none, [], some (openLine q, [])⟩ (ls ++ [c!"```"]) = _
    rw [mdLoop_append, mdLoop_fence h.notEnd rfl]
    show mdLoop L pre ⟨m, some n, none, [], some (openLine q, [] ++ ls)⟩ [c!"```"] = _
    have e2 : codeEndRe.isFull c!"```" = true := by decide
    simp only [mdLoop, mdStep, e2, if_true]
    rfl

theorem joinLines_blanks {bl : List Str} (h : ∀ b ∈ bl, b = []) : ∀ c ∈ joinLines bl, isWS c = true := by
  induction bl with
  | nil => simp
  | cons b bl ih =>
    have hb := h b (by simp)
    subst hb
    by_cases hbl : bl = []
    · subst hbl; simp
    · rw [joinLines_cons _ hbl]
      intro c hc
      simp only [List.nil_append, List.mem_cons] at hc
      rcases hc with rfl | hc
      · decide
      · exact ih (fun x hx => h x (by simp [hx])) c hc

theorem textOf_read {L : Libs} {pre : Str} {r : ArtifactRaw} (h : RawOk L pre r) {bl : List Str} (hb : ∀ b ∈ bl, b = []) :
    textOf (rawTextLines r ++ bl) = r.text := by
  unfold textOf
  cases ht : r.text with
  | none =>
    rw [rawTextLines_none ht, List.nil_append]
    have : trimEnd (joinLines bl) = [] := by
      have := trimEnd_append_ws [] _ (joinLines_blanks hb)
      exact this
    unfold cleanText
    rw [this]
    rfl
  | some t =>
    have hok := h.text t ht
    obtain ⟨h1, _, h3, h4⟩ := text_facts hok
    have e : cleanText (joinLines (lines t ++ bl)) = t := by
      have : trimEnd (joinLines (lines t ++ bl)) = trimEnd t := by
        by_cases hbl : bl = []
        · subst hbl; rw [List.append_nil, h3, trimEnd_idem]
        · rw [joinLines_append h1 hbl, h3, trimEnd_append_ws, trimEnd_idem]
          intro c hc
          rcases List.mem_cons.1 hc with rfl | hc
          · decide
          · exact joinLines_blanks hb c hc
      rw [cleanText_congr this, hok.clean]
    rw [rawTextLines_some ht]
    simp only [e]
    rw [if_neg]
    simpa using hok.ne

/-- Reading one written artifact, followed by empty lines. -/
theorem mdLoop_body {L : Libs} {pre : Str} {a : MdAttrs} (hs : SettingsOk pre a) {r : ArtifactRaw} (h : RawOk L pre r) {n : Name}
    {st : MdSt} {m : IMap Name ArtifactRaw} (hf : st.fence = none) (hm : flush L st = .ok m) (hn : IMap.contains m n = false)
    {bl : List Str} (hb : ∀ b ∈ bl, b = []) :
    ∃ st', mdLoop L pre st (bodyLines L pre a n r ++ bl) = .ok st' ∧ st'.fence = none ∧ flush L st' = .ok (m ++ [(n, r)]) := by
  have hattr : ∃ at', mdLoop L pre ⟨m, some n, none, [], none⟩
        (if r.done.isSome || r.partof.isSome then attrChunk a (attrLines L r) else []) = .ok ⟨m, some n, at', [], none⟩ ∧
      readAttrs L at' = .ok (r.done, r.partof) := by
    split
    · rename_i hd
      obtain ⟨hfacts, hne, _⟩ := attrLines_facts h hd
      refine ⟨some (joinLines (attrLines L r)), mdLoop_attrs hs hfacts m n, ?_⟩
      unfold readAttrs
      simp only [h.yaml.read hne]
      cases hp : r.partof with
      | none => rfl
      | some p =>
        simp only [Option.map_some, namesRawDe_doc (h.partof p hp).2.1]
    · rename_i hd
      refine ⟨none, rfl, ?_⟩
      simp only [Bool.or_eq_true, not_or, Bool.not_eq_true, Option.isSome_eq_false_iff, Option.isNone_iff_eq_none] at hd
      rw [hd.1, hd.2]
      rfl
  obtain ⟨at', h1, h2⟩ := hattr
  have htext : ∀ l ∈ rawTextLines r ++ bl, TextLine L.fold pre l := by
    intro l hl
    rcases List.mem_append.1 hl with hl | hl
    · cases ht : r.text with
      | none => rw [rawTextLines_none ht] at hl; simp at hl
      | some t => rw [rawTextLines_some ht] at hl; exact (h.text t ht).line l hl
    · rw [hb l hl]; exact textLine_nil
  refine ⟨⟨m, some n, at', [] ++ (rawTextLines r ++ bl), none⟩, ?_, rfl, ?_⟩
  · have e : bodyLines L pre a n r ++ bl = [pre ++ c!"# " ++ n.raw] ++
        ((if r.done.isSome || r.partof.isSome then attrChunk a (attrLines L r) else []) ++
          (rawTextLines r ++ bl)) := by
      unfold bodyLines; simp
    rw [e, mdLoop_append]
    have e1 : mdLoop L pre st [pre ++ c!"# " ++ n.raw] = .ok ⟨m, some n, none, [], none⟩ := by
      simp only [mdLoop, mdStep_heading hf hm]; rfl
    rw [e1]
    show mdLoop L pre ⟨m, some n, none, [], none⟩ _ = _
    rw [mdLoop_append, h1]
    show mdLoop L pre ⟨m, some n, at', [], none⟩ _ = _
    rw [mdLoop_text htext rfl]
  · unfold flush insertFromParts
    simp only [h2]
    show (if IMap.contains m n = true then _ else _ : Res LoadErr (IMap Name ArtifactRaw)) = _
    rw [hn, List.nil_append, textOf_read h hb, if_neg (by simp), IMap.insert_of_not_contains hn]
    rfl

/-- Reading all written artifacts. -/
theorem mdLoop_file {L : Libs} {pre : Str} {a : MdAttrs} (hs : SettingsOk pre a) {l : IMap Name ArtifactRaw} (h : ∀ x ∈ l, RawOk L pre x.2) :
    ∀ {st : MdSt} {m : IMap Name ArtifactRaw}, st.fence = none → flush L st = .ok m → IMap.Nodup (m ++ l) →
      ∃ st', mdLoop L pre st (fileLines L pre a l) = .ok st' ∧ st'.fence = none ∧ flush L st' = .ok (m ++ l) := by
  induction l with
  | nil => intro st m hf hm _; exact ⟨st, rfl, hf, by rw [List.append_nil]; exact hm⟩
  | cons x l ih =>
    obtain ⟨n, r⟩ := x
    intro st m hf hm hnd
    have e : m ++ (n, r) :: l = (m ++ [(n, r)]) ++ l := by simp
    have hn : IMap.contains m n = false := by
      cases hc : IMap.contains m n with
      | false => rfl
      | true =>
        exfalso
        obtain ⟨q, hq, hk⟩ := IMap.contains_iff.1 hc
        unfold IMap.Nodup at hnd
        rw [List.map_append, List.nodup_append] at hnd
        exact hnd.2.2 _ (List.mem_map_of_mem hq) (key n) (by simp) hk
    by_cases hl : l = []
    · subst hl
      obtain ⟨st', h1, h2, h3⟩ := mdLoop_body hs (h (n, r) (by simp)) hf hm hn (bl := []) (by simp)
      exact ⟨st', by rw [List.append_nil] at h1; exact h1, h2, h3⟩
    · obtain ⟨st', h1, h2, h3⟩ := mdLoop_body hs (h (n, r) (by simp)) hf hm hn (bl := [[], []]) (by simp)
      rw [fileLines_cons _ _ _ _ _ hl, mdLoop_append, h1]
      rw [e]
      exact ih (fun x hx => h x (by simp [hx])) h2 h3 (by rw [← e]; exact hnd)

theorem attrChunk_ok {L : Libs} {pre : Str} {a : MdAttrs} (hs : SettingsOk pre a) {ls : List Str} (h : AttrFacts L.fold pre ls) :
    ∀ l ∈ attrChunk a ls, LineOk l := by
  intro l hl
  cases a with
  | hashes =>
    rcases List.mem_append.1 hl with hl | hl
    · exact h.ok l hl
    · rw [List.mem_singleton.1 hl]; unfold LineOk; decide
  | code q =>
    rcases List.mem_cons.1 hl with rfl | hl
    · exact (openLine_facts hs rfl L.fold).2.2.2
    · rcases List.mem_append.1 hl with hl | hl
      · exact h.ok l hl
      · rw [List.mem_singleton.1 hl]; unfold LineOk; decide

theorem bodyLines_ok {L : Libs} {pre : Str} {a : MdAttrs} (hs : SettingsOk pre a) {r : ArtifactRaw} (h : RawOk L pre r) (n : Name) :
    ∀ l ∈ bodyLines L pre a n r, LineOk l := by
  intro l hl
  unfold bodyLines at hl
  rcases List.mem_cons.1 hl with rfl | hl
  · refine lineOk_of_visible ?_ (name_lastVisible n _)
    intro hm
    rcases List.mem_append.1 hm with hm | hm
    · rcases List.mem_append.1 hm with hm | hm
      · exact hs.pre hm
      · revert hm; decide
    · exact name_noNl hm
  · rcases List.mem_append.1 hl with hl | hl
    · split at hl
      · rename_i hd
        exact attrChunk_ok hs (attrLines_facts h hd).1 l hl
      · simp at hl
    · cases ht : r.text with
      | none => rw [rawTextLines_none ht] at hl; simp at hl
      | some t => rw [rawTextLines_some ht] at hl; exact (text_facts (h.text t ht)).2.1 l hl

theorem fileLines_ok {L : Libs} {pre : Str} {a : MdAttrs} (hs : SettingsOk pre a) {m : IMap Name ArtifactRaw} (h : ∀ x ∈ m, RawOk L pre x.2) :
    ∀ l ∈ fileLines L pre a m, LineOk l := by
  induction m with
  | nil => intro l hl; simp [fileLines] at hl
  | cons x m ih =>
    obtain ⟨n, r⟩ := x
    by_cases hm : m = []
    · subst hm; exact bodyLines_ok hs (h (n, r) (by simp)) n
    · intro l hl
      rw [fileLines_cons _ _ _ _ _ hm] at hl
      rcases List.mem_append.1 hl with hl | hl
      · rcases List.mem_append.1 hl with hl | hl
        · exact bodyLines_ok hs (h (n, r) (by simp)) n l hl
        · have : l = [] := by simpa using hl
          rw [this]; unfold LineOk; decide
      · exact ih (fun x hx => h x (by simp [hx])) l hl

theorem lines_file {L : Libs} {pre : Str} {a : MdAttrs} (hs : SettingsOk pre a) {m : IMap Name ArtifactRaw} (h : ∀ x ∈ m, RawOk L pre x.2) :
    lines (joinLines (fileLines L pre a m)) = fileLines L pre a m := by
  refine lines_joinLines (fileLines_ok hs h) ?_
  intro e
  by_cases hm : m = []
  · subst hm; simp [fileLines] at e
  · obtain ⟨c, hc, hw⟩ := fileLines_visible a h hm
    obtain ⟨init, hi⟩ : ∃ t, fileLines L pre a m = t ++ [[]] := by
      rw [List.getLast?_eq_some_iff] at e; exact e
    rw [hi] at hc
    by_cases hin : init = []
    · subst hin; simp at hc
    · rw [joinLines_append hin (by simp), joinLines_one, getLast?_append_one] at hc
      injection hc with hc
      subst hc
      revert hw; decide

end Art
