import Verif.Lemmas.Yaml
import Verif.Props.Json

/-!
# Property C67: the attributes in markdown files are YAML

The grammar is in Verif/Spec/Yaml.lean. For a library that reads texts of this grammar as they say and writes `done` as yaml-rust does, the conditions of C21, C22 and C46 on
the YAML library become a condition on the text of `done`.
-/

namespace Art
open Spec

/-- C67: the reader accepts exactly the texts of the grammar, with exactly the attributes that they give. -/
theorem C67_reads (s : Str) (v : Option Str × Option NamesDoc) : yamlText s = some v ↔ YamlAttrsText s v := yamlText_iff s v

/-- C67: the grammar is not ambiguous. -/
theorem C67_unambiguous {s : Str} {v w : Option Str × Option NamesDoc} (h : YamlAttrsText s v) (h' : YamlAttrsText s w) : v = w := by
  rw [← yamlText_iff] at h h'
  rw [h] at h'
  exact Option.some.inj h'

/-- C67: what is written for a text is that text in YAML exactly when it is put in quotes or has only characters that can be printed. -/
theorem C67_scalar (num : Str → Bool) (d : Str) : YamlScalarIs (yamlScalar num d) d ↔ needQuotes num d = true ∨ ∀ c ∈ d, YamlChar c := by
  unfold yamlScalar
  cases hq : needQuotes num d with
  | true => simpa using yamlQuoted_text d
  | false =>
    simp only [Bool.false_eq_true, if_false, false_or]
    exact ⟨noQuotes_plain hq, plain_of_noQuotes hq⟩

/-! ## the contract of C21 -/

theorem yamlQuoted_last (s d : Str) : (s ++ yamlQuoted d).getLast? = some '"' := by
  unfold yamlQuoted
  rw [show s ++ ('"' :: d.flatMap yamlChar ++ ['"']) = (s ++ '"' :: d.flatMap yamlChar) ++ ['"'] by simp]
  exact List.getLast?_concat

theorem yamlQuoted_oneLine (d : Str) : '\n' ∉ yamlQuoted d := by
  have hc : ∀ c, '\n' ∉ yamlChar c := by
    intro c hc
    unfold yamlChar at hc
    split_ifs at hc with h1 h2 h3 h4 h5 h6 h7 h8
    iterate 7 · revert hc; decide
    · have hd : ∀ n, hexDigit n ≠ '\n' := by
        intro n e
        have := hexDigit_control n
        rw [e] at this
        revert this; decide
      simp only [List.mem_append, List.mem_cons, List.not_mem_nil, or_false] at hc
      rcases hc with hc | hc | hc
      · revert hc; decide
      · exact hd _ hc.symm
      · exact hd _ hc.symm
    · simp only [List.mem_singleton] at hc
      exact h5 hc.symm
  unfold yamlQuoted
  simp only [List.cons_append, List.mem_cons, List.mem_append, List.mem_flatMap, List.not_mem_nil, or_false]
  rintro (h | ⟨c, -, h⟩ | h)
  · revert h; decide
  · exact hc c h
  · revert h; decide

theorem noQuotes_not {num : Str → Bool} {d : Str} (h : needQuotes num d = false) {c : Char} (hc : yamlInside c = true) : c ∉ d := by
  intro hm
  have := ((noQuotes_iff _ _).1 h).2.2.2.1 c hm
  rw [hc] at this
  cases this

/-- The lines of the attributes are YAML. -/
theorem attrLines_text {num : Str → Bool} {L : Libs} (hw : ∀ d, L.yamlDone d = yamlDoneLine num d) {r : ArtifactRaw} (hd : ∀ d, r.done = some d → YamlScalarIs (yamlScalar num d) d)
    (hp : ∀ p, r.partof = some p → p ≠ []) (h0 : attrLines L r ≠ []) (hn : ∀ d, r.done = some d → '\n' ∉ L.yamlDone d) :
    YamlAttrsText (joinLines (attrLines L r)) (r.done, r.partof.map partofDoc) := by
  have hdone : ∀ d, r.done = some d → YamlLineIs (L.yamlDone d) (.pair c!"done" d) := by
    intro d h
    rw [hw]
    exact YamlLineIs.pair (k := c!"done") (i := 0) (.inl rfl) (hd d h)
  have hname : ∀ n : Name, '\n' ∉ n.raw := by
    intro n hm
    have := name_no_ws n.lang '\n' hm
    revert this; decide
  have hpart : ∀ p : ISet Name, p ≠ [] → ∃ ys, List.Forall₂ YamlLineIs (partofLines p) ys ∧ YamlEntries ys [(c!"partof", partofDoc p)] ∧ ∀ l ∈ partofLines p, '\n' ∉ l := by
    intro p hp
    match p, hp with
    | [n], _ =>
      refine ⟨[.pair c!"partof" n.raw], .cons (YamlLineIs.pair (k := c!"partof") (i := 0) (.inr rfl) (name_scalar n)) .nil, .pair .nil, ?_⟩
      intro l hl
      rw [List.mem_singleton.1 hl]
      simp only [List.mem_append, not_or]
      exact ⟨by decide, hname n⟩
    | a :: b :: l, _ =>
      have hitems : ∀ l : List Name, List.Forall₂ YamlLineIs (l.map fun n => c!"- " ++ n.raw) (l.map fun n => .item 0 n.raw) ∧
          YamlItems 0 (l.map fun n => .item 0 n.raw) (l.map Name.raw) := by
        intro l
        induction l with
        | nil => exact ⟨.nil, .nil⟩
        | cons n l ih => exact ⟨.cons (YamlLineIs.item (i := 0) (j := 0) (name_scalar n)) ih.1, .item ih.2⟩
      obtain ⟨h1, h2⟩ := hitems (a :: b :: l)
      refine ⟨.key c!"partof" :: (a :: b :: l).map fun n => .item 0 n.raw, .cons (YamlLineIs.key (k := c!"partof") (.inr rfl)) h1, ?_, ?_⟩
      · have := YamlEntries.list (k := c!"partof") h2 (by simp) .nil
        rw [List.append_nil] at this
        exact this
      · intro x hx
        rcases List.mem_cons.1 hx with rfl | hx
        · decide
        · obtain ⟨n, -, rfl⟩ := List.mem_map.1 hx
          simp only [List.mem_append, not_or]
          exact ⟨by decide, hname n⟩
  obtain ⟨done, partof, text⟩ := r
  cases done with
  | none =>
    cases partof with
    | none => exact absurd rfl h0
    | some p =>
      obtain ⟨ys, h1, h2, h3⟩ := hpart p (hp p rfl)
      exact ⟨_, ys, _, h0, h3, rfl, h1, h2, .partof⟩
  | some d =>
    cases partof with
    | none =>
      refine ⟨_, _, _, h0, ?_, rfl, .cons (hdone d rfl) .nil, .pair .nil, .done⟩
      intro l hl
      rw [List.mem_singleton.1 hl]
      exact hn d rfl
    | some p =>
      obtain ⟨ys, h1, h2, h3⟩ := hpart p (hp p rfl)
      refine ⟨_, .pair c!"done" d :: .skip :: ys, _, h0, ?_, rfl, .cons (hdone d rfl) (.cons (YamlLineIs.blank (i := 0)) h1), .pair (.skip h2), .donePartof⟩
      intro l hl
      rcases List.mem_cons.1 hl with rfl | hl
      · exact hn d rfl
      rcases List.mem_cons.1 hl with rfl | hl
      · simp
      · exact h3 l hl

/-- C67: for a library that reads the grammar, what C21 asks of it for an artifact follows from a condition on the text of `done`. -/
theorem C67_yamlOk {L : Libs} {num : Str → Bool} (hL : YamlLib L num) {r : ArtifactRaw} (hd : ∀ d, r.done = some d → DoneKept num d)
    (hp : ∀ p, r.partof = some p → p ≠ []) : YamlOk L r := by
  have hline : ∀ d, needQuotes num d = true ∨ needQuotes num d = false := fun d => by cases needQuotes num d <;> simp
  have hone : ∀ d, '\n' ∉ L.yamlDone d := by
    intro d
    rw [hL.writes]
    unfold yamlDoneLine yamlScalar
    rcases hline d with h | h
    · rw [if_pos h]
      simp only [List.mem_append, not_or]
      exact ⟨by decide, yamlQuoted_oneLine d⟩
    · rw [h]
      simp only [Bool.false_eq_true, if_false, List.mem_append, not_or]
      exact ⟨by decide, noQuotes_not h (by decide)⟩
  refine ⟨?_, fun d _ => hone d, ?_, ?_, ?_⟩
  · intro d _
    rw [hL.writes]
    exact ⟨' ' :: yamlScalar num d, rfl⟩
  · intro d h
    rw [hL.writes]
    unfold yamlDoneLine yamlScalar
    rcases hd d h with hq | ⟨-, hl⟩
    · rw [if_pos hq]
      exact ⟨'"', yamlQuoted_last _ d, by decide⟩
    · rcases hline d with hq | hq
      · rw [if_pos hq]
        exact ⟨'"', yamlQuoted_last _ d, by decide⟩
      · rw [hq]
        simp only [Bool.false_eq_true, if_false]
        have hne := ((noQuotes_iff _ _).1 hq).1
        refine ⟨d.getLast hne, ?_, hl _ (List.getLast?_eq_getLast_of_ne_nil hne)⟩
        rw [List.getLast?_append_of_ne_nil _ hne, List.getLast?_eq_getLast_of_ne_nil hne]
  · intro d h hm
    rw [hL.writes] at hm ⊢
    unfold yamlDoneLine yamlScalar at hm ⊢
    rcases hline d with hq | hq
    · rw [if_pos hq]
      exact yamlQuoted_last _ d
    · rw [hq] at hm
      simp only [Bool.false_eq_true, if_false, List.mem_append] at hm
      rcases hm with hm | hm
      · exact absurd hm (by decide)
      · exact absurd hm (noQuotes_not hq (by decide))
  · intro h0
    refine hL.reads _ _ (attrLines_text hL.writes ?_ hp h0 fun d _ => hone d)
    intro d h
    rw [C67_scalar]
    exact (hd d h).imp id (·.1)

/-- C67: the condition on the text of `done` is exact for the library of the grammar. -/
theorem C67_yamlOk_iff (L : Libs) (num : Str → Bool) {r : ArtifactRaw} (hp : ∀ p, r.partof = some p → p ≠ []) :
    YamlOk (L.withYaml num) r ↔ ∀ d, r.done = some d → DoneKept num d := by
  refine ⟨?_, fun h => C67_yamlOk ⟨fun s v h => (yamlText_iff s v).2 h, fun _ => rfl⟩ h hp⟩
  intro h d hd
  cases hq : needQuotes num d with
  | true => exact .inl hq
  | false =>
    have hw : ∀ d, (L.withYaml num).yamlDone d = yamlDoneLine num d := fun _ => rfl
    refine .inr ⟨?_, ?_⟩
    · have h0 : attrLines (L.withYaml num) r ≠ [] := by
        obtain ⟨done, partof, text⟩ := r
        cases hd
        cases partof <;> simp [attrLines]
      obtain ⟨ls, ys, es, hl0, hln, he, hf, hent, ha⟩ := (yamlText_iff _ _).1 (h.read h0)
      have hone : '\n' ∉ yamlDoneLine num d := h.oneLine d hd
      obtain ⟨ls', e⟩ : ∃ ls', attrLines (L.withYaml num) r = yamlDoneLine num d :: ls' := by
        obtain ⟨done, partof, text⟩ := r
        cases hd
        cases partof <;> exact ⟨_, rfl⟩
      have hfirst : ∃ y, YamlLineIs (yamlDoneLine num d) y := by
        have hs := splitLf_join hl0 hln
        rw [← he, e] at hs
        by_cases h' : ls' = []
        · subst h'
          have e1 : joinLines [yamlDoneLine num d] = yamlDoneLine num d := by simp [joinLines]
          rw [e1, splitLf_line hone] at hs
          subst hs
          cases hf with
          | cons h _ => exact ⟨_, h⟩
        · rw [joinLines_cons _ h', splitLf_append hone] at hs
          subst hs
          cases hf with
          | cons h _ => exact ⟨_, h⟩
      obtain ⟨y, hy⟩ := hfirst
      have hy := (yamlLine_iff _ _).2 hy
      have hy : yamlLine (c!"done" ++ ':' :: ' ' :: yamlScalar num d) = some y := hy
      rw [yamlKeyLine_done, yamlAfterKey_iff] at hy
      obtain ⟨e, -⟩ | ⟨i, s, v, e, hv, -⟩ := hy
      · cases e
      · have hs : yamlScalar num d = d := by unfold yamlScalar; rw [hq]; rfl
        rw [hs, List.replicate_succ, List.cons_append] at e
        have e := (List.cons.inj e).2
        have hi : i = 0 := by
          cases i with
          | zero => rfl
          | succ i =>
            rw [List.replicate_succ, List.cons_append] at e
            exact absurd (((noQuotes_iff _ _).1 hq).2.1 ' ' (by rw [e]; rfl)) (by decide)
        subst hi
        have e : d = s := e
        subst e
        exact noQuotes_plain hq hv
    · intro c hc
      obtain ⟨c', h1, h2⟩ := h.visible d hd
      have e : (L.withYaml num).yamlDone d = c!"done: " ++ d := by
        show c!"done: " ++ yamlScalar num d = _
        unfold yamlScalar
        rw [hq]
        rfl
      rw [e, List.getLast?_append, hc] at h1
      cases h1
      exact h2

/-- C67: a simpler condition that is enough whatever the library takes for a number. -/
theorem C67_doneOk {d : Str} (h : DoneOk d) (num : Str → Bool) : DoneKept num d := by
  cases hq : needQuotes num d with
  | true => exact .inl hq
  | false =>
    refine .inr ⟨?_, ?_⟩
    · intro c hc
      rcases h.1 c hc with h1 | rfl | rfl
      · exact h1
      · exact absurd hc (noQuotes_not hq (by decide))
      · exact absurd hc (noQuotes_not hq (by decide))
    · intro c hc
      cases hw : isWS c with
      | false => rfl
      | true =>
        have hm := List.mem_of_getLast? hc
        have := h.2 c hc hw
        simp only [List.mem_cons, List.not_mem_nil, or_false] at this
        rcases this with rfl | rfl | rfl | rfl
        · exact absurd hc ((noQuotes_iff _ _).1 hq).2.2.1
        · exact absurd hm (noQuotes_not hq (by decide))
        · exact absurd hm (noQuotes_not hq (by decide))
        · exact absurd hm (noQuotes_not hq (by decide))

/-! ## markdown files -/

/-- C67: artifacts written to a markdown file are read back, with conditions only on the texts. -/
theorem C67_markdown {L : Libs} {num : Str → Bool} (hL : YamlLib L num) {pre : Str} {a : MdAttrs} {m : IMap Name ArtifactRaw} (hs : SettingsOk pre a) (hm : IMap.Nodup m)
    (h : ∀ x ∈ m, (∀ d, x.2.done = some d → DoneKept num d) ∧ (∀ p, x.2.partof = some p → p ≠ [] ∧ ISet.Nodup p ∧ sortNames p = p) ∧
      ∀ t, x.2.text = some t → TextOk L.fold pre t) :
    ∃ s, toMarkdown L pre a m = .ok s ∧ fromMarkdown L pre s = .ok m :=
  C21_roundtrip L pre a m hs hm fun x hx => ⟨(h x hx).2.1, (h x hx).2.2, C67_yamlOk hL (h x hx).1 fun p hp => ((h x hx).2.1 p hp).1⟩

theorem yamlDone_trim {num : Str → Bool} {d : Str} (h : needQuotes num d = false) (h' : needQuotes num (trimEnd d) = false) :
    trimEnd (yamlDoneLine num d) = yamlDoneLine num (trimEnd d) ∧ trimEnd (yamlDoneLine num (trimEnd d)) = yamlDoneLine num (trimEnd d) := by
  have hne : trimEnd d ≠ [] := ((noQuotes_iff _ _).1 h').1
  unfold yamlDoneLine yamlScalar
  rw [h, h']
  simp only [Bool.false_eq_true, if_false]
  rw [trimEnd_append _ hne, trimEnd_append _ (by rw [trimEnd_idem]; exact hne), trimEnd_idem]
  exact ⟨rfl, rfl⟩

theorem pushArtifact_back {L : Libs} {num : Str → Bool} (hL : YamlLib L num) (pre : Str) (a : MdAttrs) (out : Str) (n : Name) {r : ArtifactRaw}
    (h : ∀ d, r.done = some d → r.partof = none → needQuotes num d = false → needQuotes num (trimEnd d) = false) :
    pushArtifact L pre a out n r = pushArtifact L pre a out n (doneBack num r) := by
  obtain ⟨done, partof, text⟩ := r
  cases done with
  | none => rfl
  | some d =>
    cases partof with
    | some p =>
      unfold doneBack
      simp
    | none =>
      cases hq : needQuotes num d with
      | true => simp [doneBack, hq]
      | false =>
        have hq' := h d rfl rfl hq
        have e : doneBack num ⟨some d, none, text⟩ = ⟨some (trimEnd d), none, text⟩ := by simp [doneBack, hq]
        rw [e]
        have key : ∀ out, pushAttrs L a out ⟨some d, none, text⟩ = pushAttrs L a out ⟨some (trimEnd d), none, text⟩ := by
          intro out
          show Res.ok (trimEnd (out ++ attrsOpen a ++ L.yamlDone d ++ c!"\n\n") ++ attrsClose a) = Res.ok (trimEnd (out ++ attrsOpen a ++ L.yamlDone (trimEnd d) ++ c!"\n\n") ++ attrsClose a)
          have hws : ∀ c ∈ c!"\n\n", isWS c = true := by decide
          rw [trimEnd_append_ws _ _ hws, trimEnd_append_ws _ _ hws, hL.writes, hL.writes]
          obtain ⟨h1, h2⟩ := yamlDone_trim hq hq'
          have hne : yamlDoneLine num (trimEnd d) ≠ [] := by simp [yamlDoneLine]
          rw [trimEnd_append _ (by rw [h1]; exact hne), trimEnd_append _ (by rw [h2]; exact hne), h1, h2]
        show (pushAttrs L a _ _ >>= _ : Res Unit Str) = (pushAttrs L a _ _ >>= _ : Res Unit Str)
        rw [key]

/-- C67: what is lost. Without `partof`, white space at the end of `done` that is not put in quotes is gone after writing and reading. -/
theorem C67_lost {L : Libs} {num : Str → Bool} (hL : YamlLib L num) {pre : Str} {a : MdAttrs} {m : IMap Name ArtifactRaw} (hs : SettingsOk pre a) (hm : IMap.Nodup m)
    (h : ∀ x ∈ m, (∀ d, x.2.done = some d → (x.2.partof = none ∧ needQuotes num d = false ∧ DoneKept num (trimEnd d) ∧ needQuotes num (trimEnd d) = false) ∨ DoneKept num d) ∧
      (∀ p, x.2.partof = some p → p ≠ [] ∧ ISet.Nodup p ∧ sortNames p = p) ∧ ∀ t, x.2.text = some t → TextOk L.fold pre t) :
    ∃ s, toMarkdown L pre a m = .ok s ∧ fromMarkdown L pre s = .ok (m.map fun x => (x.1, doneBack num x.2)) := by
  have hkept : ∀ d, DoneKept num d → needQuotes num d = false → trimEnd d = d := by
    intro d hd hq
    rcases hd with hd | ⟨-, hd⟩
    · rw [hq] at hd; cases hd
    · have hne := ((noQuotes_iff _ _).1 hq).1
      exact trimEnd_eq_self ⟨_, List.getLast?_eq_getLast_of_ne_nil hne, hd _ (List.getLast?_eq_getLast_of_ne_nil hne)⟩
  have hback := C67_markdown hL (a := a) (m := m.map fun x => (x.1, doneBack num x.2)) hs
    (by
      unfold IMap.Nodup at hm ⊢
      rw [List.map_map]
      exact hm)
    (by
      intro y hy
      obtain ⟨x, hx, rfl⟩ := List.mem_map.1 hy
      obtain ⟨h1, h2, h3⟩ := h x hx
      refine ⟨?_, h2, h3⟩
      intro d hd
      obtain ⟨d0, hd0, rfl⟩ := Option.map_eq_some_iff.1 hd
      rcases h1 d0 hd0 with ⟨hp, hq, hk, -⟩ | hk
      · rw [if_pos ⟨hp, hq⟩]
        exact hk
      · split
        · rename_i e
          rw [hkept d0 hk e.2]
          exact hk
        · exact hk)
  obtain ⟨s, e1, e2⟩ := hback
  refine ⟨s, ?_, e2⟩
  rw [← e1]
  unfold toMarkdown
  congr 1
  have : ∀ out, pushAll L pre a out m = pushAll L pre a out (m.map fun x => (x.1, doneBack num x.2)) := by
    clear e1 e2 hm
    induction m with
    | nil => intro out; rfl
    | cons x m ih =>
      intro out
      obtain ⟨n, r⟩ := x
      show (pushArtifact L pre a out n r >>= fun out => pushAll L pre a out m) = (pushArtifact L pre a out n (doneBack num r) >>= fun out => pushAll L pre a out _)
      rw [pushArtifact_back hL]
      · congr 1
        funext out
        exact ih (fun x hx => h x (by simp [hx])) out
      · intro d hd hp hq
        rcases (h (n, r) (by simp)).1 d hd with ⟨-, -, -, h'⟩ | hk
        · exact h'
        · rw [hkept d hk hq]
          exact hq
  exact this []

/-! ## whole projects -/

/-- C67: artifacts in a markdown file survive being written and read again if their texts and their `done` texts are kept. -/
theorem C67_survives {L : Libs} {num : Str → Bool} (hL : YamlLib L num) {s : Settings} {f : FilePath} (hf : ArtFileType.fromPath f = some .md) {ims : List ArtifactIm}
    (hs : SettingsOk s.pre s.mdAttrs) (h : ∀ a ∈ ims, (a.text ≠ [] → TextOk L.fold s.pre a.text) ∧ ∀ d, a.done = some d → DoneKept num d) : Survives L s f ims := by
  unfold Survives
  rw [hf]
  refine ⟨hs, fun a ha => ⟨(h a ha).1, C67_yamlOk hL (h a ha).2 ?_⟩⟩
  intro p hp
  have hp : (if a.partof.isEmpty then none else some a.partof) = some p := hp
  split at hp
  · cases hp
  · rename_i hne
    cases hp
    simpa using hne

section
variable {L : Libs} {num : Str → Bool} {readToml : Str → Option SettingsRaw} {hash : ArtifactIm → HashIm} {dbg : ArtifactIm → Str} {ncpu ncpu' : Nat} {fs fs' : FS}
  {base : FilePath} {s : Settings} {ops : List ArtifactOp} {c : Categorized} {p q : Project}

/-- C67: if all artifacts are in markdown files, reading again after a modification gives the project that was returned, with conditions only on the texts and the `done`
texts of the artifacts. -/
theorem C67_reload (hL : YamlLib L num) (w : FS.WF fs) (hs : SettingsOf readToml fs base s) (hsafe : Safe fs s) (ap : Apart s) (hl : LinkSets ops)
    (once : ∀ op ∈ ops, ∀ a, Brings op a → ReadOnce s a.file)
    (h : Modifies L readToml hash dbg ncpu fs base ops (some (.ok (c, q))) fs') (hset : SettingsOk s.pre s.mdAttrs)
    (md : ∀ a ∈ editable q, ArtFileType.fromPath a.file = some .md ∧ (a.text ≠ [] → TextOk L.fold s.pre a.text) ∧ ∀ d, a.done = some d → DoneKept num d)
    {out : Res Categorized (Categorized × Project)} (h' : ReadsProject L readToml hash ncpu' fs' base out) :
    (Crashing q ∧ out = .panic) ∨ (¬ Crashing q ∧ ∃ c2 q2, out = .ok (c2, q2) ∧ foldCase q2 = foldCase q) :=
  C46_reload w hs hsafe ap hl once h (fun a ha => C67_survives hL (md a ha).1 hset fun b hb => (md b (List.mem_filter.1 hb).1).2) h'

/-- C67: if all artifacts are in markdown files, formatting keeps every artifact, with conditions only on the texts and the `done` texts of the artifacts. -/
theorem C67_fmt (hL : YamlLib L num) (w : FS.WF fs) (hs : SettingsOf readToml fs base s) (hsafe : Safe fs s) (ap : Apart s)
    (hr : ReadsProject L readToml hash ncpu fs base (.ok (c, p))) (hcol : NoCollision hash p []) (hset : SettingsOk s.pre s.mdAttrs)
    (md : ∀ a ∈ editable p, ArtFileType.fromPath a.file = some .md ∧ (a.text ≠ [] → TextOk L.fold s.pre a.text) ∧ ∀ d, a.done = some d → DoneKept num d)
    {res : Categorized × Project} (h : Modifies L readToml hash dbg ncpu' fs base [] (some (.ok res)) fs')
    {n : Nat} {out : Res Categorized (Categorized × Project)} (h' : ReadsProject L readToml hash n fs' base out) :
    ∃ c2 q2, out = .ok (c2, q2) ∧ foldCase q2 = foldCase p :=
  C46_fmt w hs hsafe ap hr hcol (fun a ha => C67_survives hL (md a ha).1 hset fun b hb => (md b (List.mem_filter.1 hb).1).2) h h'

end

/-! ## examples -/

/-- Texts of digits are taken for numbers. -/
def exNum (s : Str) : Bool := s.all Char.isDigit

/-- The libraries with YAML. -/
def exYamlLibs : Libs := exLibs.withYaml exNum

theorem exYamlLibs_ok : YamlLib exYamlLibs exNum := ⟨fun s v h => (yamlText_iff s v).2 h, fun _ => rfl⟩

/-- A text with a comment, an escape, a blank line, a list and single quotes. -/
example : YamlAttrsText c!"# why\ndone:  \"all: \\x41\\u00e9\\n\"\n\npartof:\n  - REQ-a\n  # and\n  - 'REQ-b'\n" (some c!"all: Aé\n", some (.seq [c!"REQ-a", c!"REQ-b"])) :=
  (C67_reads _ _).1 (by decide +kernel)

example : YamlAttrsText c!"partof: REQ-a\ndone: see http://x.org/#y" (some c!"see http://x.org/#y", some (.str c!"REQ-a")) := (C67_reads _ _).1 (by decide +kernel)

/-- Texts that the grammar does not have: a colon in a plain text, a comment where the value ends, a key twice, an open quote, null, a list with two indentations. -/
example : ∀ s ∈ [c!"done: a: b", c!"done: a #b", c!"done: a\ndone: b", c!"done: \"a", c!"done: ~", c!"partof:\n- REQ-a\n - REQ-b", c!"done:x", c!"done: - a", c!"done: @a", c!"- a",
    c!"done: \"\\q\"", c!"done: 'a'b'", c!" done: a", c!""], ∀ v, ¬ YamlAttrsText s v := by
  intro s hs v h
  have h := (C67_reads s v).2 h
  have key : ∀ s ∈ [c!"done: a: b", c!"done: a #b", c!"done: a\ndone: b", c!"done: \"a", c!"done: ~", c!"partof:\n- REQ-a\n - REQ-b", c!"done:x", c!"done: - a", c!"done: @a", c!"- a",
    c!"done: \"\\q\"", c!"done: 'a'b'", c!" done: a", c!""], yamlText s = none := by decide +kernel
  rw [key s hs] at h
  cases h

/-- How texts are written. -/
example : [c!"by hand", c!"it's done", c!"12", c!"a: b", c!"", c!"true", c!"line\nend\\", c!" x", [Char.ofNat 1, Char.ofNat 0x7f, '#']].map (fun d => String.ofList (yamlScalar exNum d)) =
    ["by hand", "\"it's done\"", "\"12\"", "\"a: b\"", "\"\"", "\"true\"", "\"line\\nend\\\\\"", "\" x\"", "\"\\u0001\\u007f#\""] := by decide +kernel

/-- Every one of these is kept. -/
example : ∀ d ∈ [c!"by hand", c!"it's done", c!"12", c!"a: b", c!"", c!"true", c!"line\nend\\ ", c!" x\r"], DoneOk d := by
  intro d hd
  unfold DoneOk YamlChar
  simp only [List.mem_cons, List.not_mem_nil, or_false] at hd
  rcases hd with rfl | rfl | rfl | rfl | rfl | rfl | rfl | rfl
  all_goals exact ⟨by decide, by intro c hc hw; first | (cases hc; decide) | (cases hc; revert hw; decide) | cases hc⟩

/-- Both kinds of `done` that are not kept: a bell is written without quotes, and a no-break space at the end is trimmed. -/
example : ¬ DoneKept exNum [Char.ofNat 7] ∧ ¬ DoneKept exNum ['x', Char.ofNat 0xa0] := by
  refine ⟨?_, ?_⟩
  · rintro (h | ⟨h, -⟩)
    · revert h; decide
    · have := h _ (List.mem_singleton.2 rfl)
      revert this
      unfold YamlChar
      decide
  · rintro (h | ⟨-, h⟩)
    · revert h; decide
    · have := h _ rfl
      revert this
      decide

/-- A case that meets the hypotheses of `C67_lost`, where something is lost. -/
example : ∃ s, toMarkdown exYamlLibs [] .hashes [(Name.lit c!"SPC-a", ⟨some ['x', Char.ofNat 0xa0], none, none⟩), (Name.lit c!"SPC-b", ⟨some c!"y ", none, none⟩)] = .ok s ∧
    fromMarkdown exYamlLibs [] s = .ok [(Name.lit c!"SPC-a", ⟨some ['x'], none, none⟩), (Name.lit c!"SPC-b", ⟨some c!"y ", none, none⟩)] := by
  refine C67_lost (a := .hashes) (m := [(Name.lit c!"SPC-a", ⟨some ['x', Char.ofNat 0xa0], none, none⟩), (Name.lit c!"SPC-b", ⟨some c!"y ", none, none⟩)]) exYamlLibs_ok
    ⟨by decide, by simp⟩ (by unfold IMap.Nodup; decide) ?_
  intro x hx
  simp only [List.mem_cons, List.not_mem_nil, or_false] at hx
  rcases hx with rfl | rfl
  · refine ⟨?_, fun p hp => (nomatch hp), fun t ht => (nomatch ht)⟩
    intro d hd
    cases hd
    refine .inl ⟨rfl, by decide, .inr ⟨?_, ?_⟩, by decide⟩
    · have : trimEnd ['x', Char.ofNat 0xa0] = ['x'] := by decide
      rw [this]
      unfold YamlChar
      decide
    · intro c hc
      have : trimEnd ['x', Char.ofNat 0xa0] = ['x'] := by decide
      rw [this] at hc
      cases hc
      decide
  · refine ⟨?_, fun p hp => (nomatch hp), fun t ht => (nomatch ht)⟩
    intro d hd
    cases hd
    exact .inr (.inl (by decide))

/-- A markdown project with a `done` in single quotes, a comment among the attributes, and a third artifact with white space in its `done`. -/
def exYaml (t : Str) : FS :=
  [(c!"", .dir), (c!"/p", .dir), (c!"/p/.art", .dir), (c!"/p/.art/settings.toml", .file (.text c!"")), (c!"/p/design", .dir),
   (c!"/p/design/a.md", .file (.text t)), (c!"/p/src", .dir)]

/-- The space is the last character. -/
def exYamlOut : Str := c!"# REQ-a\ndone: 'by: hand'\n###\nsay hi\n\n# SPC-b\n```yaml art\n# see\npartof: REQ-a\n```\n\n# SPC-c\ndone: \"x\\_\"\n###\n"

/-- The space is followed by a visible character. -/
def exYamlIn : Str := c!"# REQ-a\ndone: 'by: hand'\n###\nsay hi\n\n# SPC-b\n```yaml art\n# see\npartof: REQ-a\n```\n\n# SPC-c\ndone: \"x\\_!\"\n###\n"

theorem exYaml_settings (q : Str) : SettingsOf (fun _ => some exRaw) (exYaml q) c!"/p" exS := ⟨exS.settingsPath, exRaw, rfl, rfl⟩

/-- The artifacts of the example. -/
def exYamlArts (d : Str) : List ArtifactIm :=
  [⟨Name.lit c!"REQ-a", c!"/p/design/a.md", [], some c!"by: hand", c!"say hi"⟩, ⟨Name.lit c!"SPC-b", c!"/p/design/a.md", [Name.lit c!"REQ-a"], none, []⟩,
   ⟨Name.lit c!"SPC-c", c!"/p/design/a.md", [], some d, []⟩]

/-- What is read. -/
def exSeen (L : Libs) (fs : FS) : Option (List Lint × List ArtifactIm) := match readNow L exId fs exS with | .ok r => some (r.1.error, editable r.2) | _ => none

/-- Formatting an example project and reading it before and after. -/
theorem exFmt_run {L : Libs} {fs : FS} {arts arts' : List ArtifactIm} {t : List (String × String)} (hs : SettingsOf (fun _ => some exRaw) fs c!"/p" exS)
    (ht : FS.isTree fs = true) (hc : (walkCode fs exS).countP (fun f => (codeSent L fs f).dead) < 4)
    (ha : (walkArtifacts fs exS).countP (fun f => (artSent L exS.pre fs f).dead) < 4) (h1 : exSeen L fs = some ([], arts))
    (h2 : (modifyNow L exId fs exS [] 1000).map (fun r => (r.2.1, shown r.2.2)) = some (.done, t))
    (h3 : (modifyNow L exId fs exS [] 1000).map (fun r =>
        decide ((loadSettingsRaw (fun _ => some exRaw) r.2.2 c!"/p").map (·.1) = some exS.settingsPath ∧ (walkCode r.2.2 exS).countP (fun f => (codeSent L r.2.2 f).dead) < 4 ∧ (walkArtifacts r.2.2 exS).countP (fun f => (artSent L exS.pre r.2.2 f).dead) < 4)) = some true)
    (h4 : (modifyNow L exId fs exS [] 1000).map (fun r => exSeen L r.2.2) = some (some ([], arts'))) :
    ∃ c p res fs' c2 q2, FS.WF fs ∧ ReadsProject L (fun _ => some exRaw) exId 4 fs c!"/p" (.ok (c, p)) ∧ c.error = [] ∧ editable p = arts ∧
      Modifies L (fun _ => some exRaw) exId (fun _ => []) 4 fs c!"/p" [] (some (.ok res)) fs' ∧
      shown fs' = t ∧ ReadsProject L (fun _ => some exRaw) exId 4 fs' c!"/p" (.ok (c2, q2)) ∧ c2.error = [] ∧ editable q2 = arts' := by
  have hr := readNow_reads (L := L) (hash := exId) (ncpu := 4) hs hc ha
  unfold exSeen at h1
  cases hn : readNow L exId fs exS with
  | ok r =>
    obtain ⟨c, p⟩ := r
    rw [hn] at hr h1
    simp only [Option.some.injEq, Prod.mk.injEq] at h1
    obtain ⟨h0, h1⟩ := h1
    obtain ⟨⟨files, ph, fs'⟩, h2, h3'⟩ := Option.map_eq_some_iff.1 h2
    rw [h2] at h3 h4
    have h7 : exSeen L fs' = some ([], arts') := Option.some.inj h4
    simp only [Option.map_some, Option.some.injEq, decide_eq_true_eq] at h3
    obtain ⟨hload, h5, h6⟩ := h3
    simp only [Prod.mk.injEq] at h3'
    obtain ⟨rfl, h3⟩ := h3'
    obtain ⟨_, out, ⟨res, rfl⟩, hm⟩ := modifyNow_sound (ncpu := 4) hs hc ha h2
    have hs' : SettingsOf (fun _ => some exRaw) fs' c!"/p" exS := by
      refine ⟨exS.settingsPath, exRaw, ?_, rfl⟩
      obtain ⟨⟨path, raw⟩, e1, e2⟩ := Option.map_eq_some_iff.1 hload
      have e2 : path = exS.settingsPath := e2
      subst e2
      rw [e1]
      unfold loadSettingsRaw at e1
      split at e1
      · dsimp only at e1
        split at e1
        · cases e1; rfl
        · cases e1
      · cases e1
    have hr' := readNow_reads (L := L) (hash := exId) (ncpu := 4) hs' h5 h6
    unfold exSeen at h7
    cases hn' : readNow L exId fs' exS with
    | ok r' =>
      obtain ⟨c2, q2⟩ := r'
      rw [hn'] at hr' h7
      simp only [Option.some.injEq, Prod.mk.injEq] at h7
      exact ⟨c, p, res, fs', c2, q2, FS.isTree_wf ht, hr, h0, h1, hm, h3, hr', h7.1, h7.2⟩
    | err e => rw [hn'] at h7; cases h7
    | panic => rw [hn'] at h7; cases h7
  | err e => rw [hn] at h1; cases h1
  | panic => rw [hn] at h1; cases h1

set_option maxRecDepth 4000 in
/-- The no-break space at the end of `done` is gone after `art fmt`, without an error. -/
theorem C67_fmt_lost : ∃ fs c p res fs' c2 q2, FS.WF fs ∧ ReadsProject exYamlLibs (fun _ => some exRaw) exId 4 fs c!"/p" (.ok (c, p)) ∧ c.error = [] ∧
    Modifies exYamlLibs (fun _ => some exRaw) exId (fun _ => []) 4 fs c!"/p" [] (some (.ok res)) fs' ∧
    ReadsProject exYamlLibs (fun _ => some exRaw) exId 4 fs' c!"/p" (.ok (c2, q2)) ∧ c2.error = [] ∧
    (editable p).map (·.done) = [some c!"by: hand", none, some ['x', Char.ofNat 0xa0]] ∧ (editable q2).map (·.done) = [some c!"by: hand", none, some ['x']] := by
  obtain ⟨c, p, res, fs', c2, q2, h1, h2, h3, h4, h5, -, h6, h7, h8⟩ := exFmt_run (L := exYamlLibs) (arts := exYamlArts ['x', Char.ofNat 0xa0]) (arts' := exYamlArts ['x'])
    (t := [("/p/design/a.md", "# REQ-a\ndone: \"by: hand\"\n###\nsay hi\n\n\n# SPC-b\npartof: REQ-a\n###\n\n\n# SPC-c\ndone: x\n###")]) (exYaml_settings exYamlOut) (by decide +kernel) (by decide +kernel) (by decide +kernel)
    (by decide +kernel) (by decide +kernel) (by decide +kernel) (by decide +kernel)
  refine ⟨_, c, p, res, fs', c2, q2, h1, h2, h3, h5, h6, h7, ?_, ?_⟩
  · rw [h4]; rfl
  · rw [h8]; rfl

set_option maxRecDepth 4000 in
/-- A case that meets the hypotheses of `C67_fmt`: with a visible character after it, the no-break space is kept. -/
theorem exYaml_kept : ∃ c p res fs' c2 q2, FS.WF (exYaml exYamlIn) ∧ Safe (exYaml exYamlIn) exS ∧
    ReadsProject exYamlLibs (fun _ => some exRaw) exId 4 (exYaml exYamlIn) c!"/p" (.ok (c, p)) ∧ NoCollision exId p [] ∧ SettingsOk exS.pre exS.mdAttrs ∧
    (∀ a ∈ editable p, ArtFileType.fromPath a.file = some .md ∧ (a.text ≠ [] → TextOk exYamlLibs.fold exS.pre a.text) ∧ ∀ d, a.done = some d → DoneKept exNum d) ∧
    Modifies exYamlLibs (fun _ => some exRaw) exId (fun _ => []) 4 (exYaml exYamlIn) c!"/p" [] (some (.ok res)) fs' ∧
    shown fs' = [("/p/design/a.md", "# REQ-a\ndone: \"by: hand\"\n###\nsay hi\n\n\n# SPC-b\npartof: REQ-a\n###\n\n\n# SPC-c\ndone: x\u00a0!\n###")] ∧
    ReadsProject exYamlLibs (fun _ => some exRaw) exId 4 fs' c!"/p" (.ok (c2, q2)) ∧ editable q2 = editable p := by
  obtain ⟨c, p, res, fs', c2, q2, h1, h2, h3, h4, h5, ht, h6, h7, h8⟩ := exFmt_run (L := exYamlLibs) (arts := exYamlArts ['x', Char.ofNat 0xa0, '!'])
    (arts' := exYamlArts ['x', Char.ofNat 0xa0, '!'])
    (t := [("/p/design/a.md", "# REQ-a\ndone: \"by: hand\"\n###\nsay hi\n\n\n# SPC-b\npartof: REQ-a\n###\n\n\n# SPC-c\ndone: x\u00a0!\n###")]) (exYaml_settings exYamlIn) (by decide +kernel) (by decide +kernel) (by decide +kernel) (by decide +kernel) (by decide +kernel) (by decide +kernel) (by decide +kernel)
  refine ⟨c, p, res, fs', c2, q2, h1, exSafe_of h1 (by decide +kernel) (by decide +kernel), h2, noCollision_of ?_, ⟨by decide, by intro p hp; cases hp⟩, ?_, h5, ht, h6, by rw [h4, h8]⟩
  · rw [h4]; decide +kernel
  · rw [h4]
    intro a ha
    simp only [exYamlArts, List.mem_cons, List.not_mem_nil, or_false] at ha
    rcases ha with rfl | rfl | rfl
    · refine ⟨by decide +kernel, fun _ => ?_, ?_⟩
      · exact textOk_of (by decide) (by decide) (by decide) (by decide)
      · intro d hd
        cases hd
        exact .inl (by decide)
    · exact ⟨by decide +kernel, fun h => absurd rfl h, fun d hd => (nomatch hd)⟩
    · refine ⟨by decide +kernel, fun h => absurd rfl h, ?_⟩
      intro d hd
      cases hd
      refine .inr ⟨?_, ?_⟩
      · unfold YamlChar; decide
      · intro c hc; cases hc; decide

end Art
