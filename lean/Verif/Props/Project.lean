import Verif.Lemmas.TextRef
import Verif.Props.Join
import Verif.Props.Markdown

/-!
# Properties C13, C14, C19, C40, C41, C42 and C44: the lints of a project

A project is *loaded* if its artifacts are an outcome of loading (`Loads`); all theorems are about every loaded project. Lints are
recognised by level, category and message in the list of **all** lints of the project, so that the theorems say what a user sees and not
which function sends it.
-/

namespace Art.Spec

/-- A subname in brackets is written in the text. -/
def DefinesSub (text : Str) (sub : SubName) : Prop :=
  ∃ pre s post, text = pre ++ c!"[[" ++ s ++ c!"]]" ++ post ∧ SubLike s ∧ upper s = upper sub.raw

/-- A reference `[[NAME]]` or `[[NAME.sub]]` is written in the text. -/
def WritesRef (text : Str) (name : Str) (sub : Option SubName) : Prop :=
  NameLike name ∧ (∀ s, sub = some s → SubLike s.raw) ∧
    ∃ pre post, text = pre ++ c!"[[" ++ (name ++ match sub with | some s => s.raw | none => []) ++ c!"]]" ++ post

/-- What a reference needs does not exist: there is no such artifact, or it has no such subname in its text. -/
def NoTarget (as : List Artifact) (n : Name) (sub : Option SubName) : Prop :=
  (∀ b ∈ as, key b.name ≠ key n) ∨ ∃ b ∈ as, key b.name = key n ∧ ∃ s, sub = some s ∧ ¬ DefinesSub b.text s

/-- The location `loc` was recorded for the artifact `n` or its subname. -/
def Recorded (code : IMap Name ImplCode) (n : Name) (sub : Option SubName) (loc : CodeLoc) : Prop :=
  ∃ c, (n, c) ∈ code ∧ match sub with
    | none => c.primary = some loc
    | some s => (s, loc) ∈ c.secondary

/-- Why a recorded reference to `n` or a subname of it is wrong, and what the user is told. -/
inductive WrongRef (ims : IMap Name ArtifactIm) (n : Name) : Option SubName → Str → Prop
  | missing (sub) : (∀ x ∈ ims, key x.1 ≠ key n) → WrongRef ims n sub (c!"Artifact " ++ n.raw ++ c!" does not exist")
  | done (sub x) : x ∈ ims → key x.1 = key n → x.2.done ≠ none → WrongRef ims n sub c!"Artifact's done field is set"
  | noSub (s x) : x ∈ ims → key x.1 = key n → x.2.done = none → ¬ DefinesSub x.2.text s →
      WrongRef ims n (some s) (c!"Subname [[" ++ s.raw ++ c!"]] does not exist in artifact's text")

/-- Order of the types along links. -/
def tyRank : Ty → Nat
  | .TST => 0
  | .SPC => 1
  | .REQ => 2

end Art.Spec

namespace Art
open Spec

/-! ## messages cannot be confused -/

theorem name_noBlank (n : Name) : ' ' ∉ n.raw := name_outside n.lang (by decide)
theorem name_noColon (n : Name) : ':' ∉ n.raw := name_outside n.lang (by decide)

theorem msg_unique {n n' : Name} {c : Char} {r r' : Str} (hc : nameCharI c = false ∧ c ≠ '-') (h : n.raw ++ c :: r = n'.raw ++ c :: r') :
    n = n' ∧ r = r' := by
  obtain ⟨h1, h2⟩ := until_unique (name_outside n.lang hc) (name_outside n'.lang hc) h
  exact ⟨Name.ext_raw h1, h2⟩

theorem msg_done_ne {n n' : Name} {r r' : Str} (h : n.raw ++ ' ' :: r = n'.raw ++ ':' :: ' ' :: r') : False := by
  have h' : n.raw ++ ' ' :: r = (n'.raw ++ [':']) ++ ' ' :: r' := by rw [h]; simp
  obtain ⟨h1, _⟩ := until_unique (name_noBlank n) (by
    intro hm
    rcases List.mem_append.1 hm with hm | hm
    · exact name_noBlank n' hm
    · simp at hm) h'
  exact name_noColon n (by rw [h1]; simp)

section
variable {hash : ArtifactIm → HashIm} {ims : IMap Name ArtifactIm} {code : IMap Name ImplCode} {defined : IMap Name FilePath}
  {arts : IMap Name Artifact} {L : Libs} {st : Settings}

/-! ## all lints -/

theorem lint_ok {p : Project} {ls : List Lint} : p.lint L = .ok ls ↔ ∃ refs, lintTextRefs p = .ok refs ∧
    ls = p.lintErrors L ++ (refs ++ lintCodeImpls p ++ lintSettings L p) := by
  unfold Project.lint Project.lintOther
  cases lintTextRefs p with
  | ok refs =>
    show Res.ok _ = Res.ok _ ↔ _
    constructor
    · intro h; exact ⟨refs, rfl, (Res.ok.inj h).symm⟩
    · rintro ⟨r, h, rfl⟩; cases h; rfl
  | err e => exact Iff.intro (fun h => nomatch h) (fun h => by obtain ⟨_, h, _⟩ := h; exact nomatch h)
  | panic => exact Iff.intro (fun h => nomatch h) (fun h => by obtain ⟨_, h, _⟩ := h; exact nomatch h)

theorem refLintOf_shape {p : Project} {n : Name} {file : FilePath} {m : Match} {ls : List Lint} (h : refLintOf p n file m = .ok ls) :
    ∀ l ∈ ls, l.level = .warn ∧ l.category = .artifact := by
  unfold refLintOf at h
  split at h
  · cases h
  · split at h
    · simp only [Res.ok.injEq] at h
      subst h
      intro l hl
      split at hl
      · rw [List.mem_singleton.1 hl]; exact ⟨rfl, rfl⟩
      · split at hl
        · simp at hl
        · rw [List.mem_singleton.1 hl]; exact ⟨rfl, rfl⟩
      · simp at hl
    · cases h

theorem lintTextRefs_mem {p : Project} {ls : List Lint} (h : lintTextRefs p = .ok ls) (l : Lint) : l ∈ ls ↔
    ∃ x ∈ p.artifacts, ∃ m ∈ Re.findIter textRefRe x.2.text, ∃ k, refLintOf p x.1 x.2.file m = .ok k ∧ l ∈ k := by
  unfold lintTextRefs at h
  obtain ⟨ks, hk, h⟩ := Res.bind_eq_ok.1 h
  cases h
  rw [Res.mapM'_eq_ok] at hk
  have key1 : ∀ {α β : Type} {f : α → Res Unit β} {xs : List α} {ys : List β}, List.Forall₂ (fun x y => f x = .ok y) xs ys →
      ∀ y, y ∈ ys ↔ ∃ x ∈ xs, f x = .ok y := by
    intro α β f xs ys hf
    induction hf with
    | nil => simp
    | @cons a b la lb h _ ih =>
      intro y
      rw [List.mem_cons, ih]
      constructor
      · rintro (rfl | ⟨x, hx, hy⟩)
        · exact ⟨a, by simp, h⟩
        · exact ⟨x, by simp [hx], hy⟩
      · rintro ⟨x, hx, hy⟩
        rcases List.mem_cons.1 hx with rfl | hx
        · left; rw [h] at hy; cases hy; rfl
        · exact Or.inr ⟨x, hx, hy⟩
  rw [List.mem_flatten]
  constructor
  · rintro ⟨k, hkm, hl⟩
    obtain ⟨x, hx, e⟩ := (key1 hk k).1 hkm
    unfold refLintsOf at e
    obtain ⟨js, hj, e⟩ := Res.bind_eq_ok.1 e
    cases e
    rw [Res.mapM'_eq_ok] at hj
    obtain ⟨j, hjm, hlj⟩ := List.mem_flatten.1 hl
    obtain ⟨m, hm, em⟩ := (key1 hj j).1 hjm
    exact ⟨x, hx, m, hm, j, em, hlj⟩
  · rintro ⟨x, hx, m, hm, j, em, hlj⟩
    -- the inner loop of x succeeded
    have : ∃ k ∈ ks, refLintsOf p x = .ok k := by
      clear hlj em hm h
      revert hx hk
      generalize p.artifacts = as
      intro hk hx
      induction hk with
      | nil => simp at hx
      | @cons a b la lb h _ ih =>
        rcases List.mem_cons.1 hx with rfl | hx
        · exact ⟨b, by simp, h⟩
        · obtain ⟨k, h1, h2⟩ := ih hx; exact ⟨k, by simp [h1], h2⟩
    obtain ⟨k, hkm, e⟩ := this
    refine ⟨k, hkm, ?_⟩
    unfold refLintsOf at e
    obtain ⟨js, hj, e⟩ := Res.bind_eq_ok.1 e
    cases e
    rw [Res.mapM'_eq_ok] at hj
    exact List.mem_flatten.2 ⟨j, (key1 hj j).2 ⟨m, hm, em⟩, hlj⟩

theorem codeLintStep_shape {p : Project} {x : Name × ImplCode} : ∀ l ∈ codeLintStep p x, l.level = .warn ∧ l.category = .implCode := by
  have hall : ∀ {c : ImplCode} {msg : Str}, ∀ l ∈ codeLintAll x.1 c msg, l.level = .warn ∧ l.category = .implCode := by
    intro c msg l hl
    unfold codeLintAll at hl
    rcases List.mem_append.1 hl with hl | hl
    · split at hl
      · rw [List.mem_singleton.1 hl]; exact ⟨rfl, rfl⟩
      · simp at hl
    · obtain ⟨y, _, rfl⟩ := List.mem_map.1 hl
      exact ⟨rfl, rfl⟩
  intro l hl
  unfold codeLintStep at hl
  split at hl
  · split at hl
    · exact hall l hl
    · obtain ⟨y, _, h⟩ := List.mem_filterMap.1 hl
      split at h
      · cases h
      · cases h; exact ⟨rfl, rfl⟩
    · simp at hl
  · exact hall l hl

/-- The lints of a project that a user gets to see: all of them after reading, the fatal ones after a modification. -/
def Reported (L : Libs) (p : Project) (ls : List Lint) : Prop := p.lint L = .ok ls ∨ ls = p.lintErrors L

/-- The fatal lints among all lints: those of level error and category artifact. -/
theorem mem_lint_fatal {p : Project} {ls : List Lint} (h : Reported L p ls) {l : Lint} (h1 : l.level = .error) (h2 : l.category = .artifact) :
    l ∈ ls ↔ l ∈ p.lintErrors L := by
  rcases h with h | rfl
  swap
  · exact Iff.rfl
  obtain ⟨refs, hr, rfl⟩ := lint_ok.1 h
  rw [List.mem_append, List.mem_append, List.mem_append]
  constructor
  · rintro (h | (h | h) | h)
    · exact h
    · exfalso
      obtain ⟨x, _, m, _, k, e, hl⟩ := (lintTextRefs_mem hr l).1 h
      have := (refLintOf_shape e l hl).1
      rw [h1] at this; cases this
    · exfalso
      obtain ⟨x, _, hl⟩ := List.mem_flatMap.1 h
      have := (codeLintStep_shape l hl).1
      rw [h1] at this; cases this
    · exfalso
      unfold lintSettings at h
      split at h
      · simp at h
      · split at h
        · simp at h
        · rw [List.mem_singleton.1 h] at h2; cases h2
  · exact Or.inl

theorem mem_dne {p : Project} {l : Lint} : l ∈ lintPartofDne p ↔ ∃ x ∈ p.artifacts, ∃ q ∈ x.2.partof, IMap.contains p.artifacts q = false ∧
    l = artLint .error x.2.file (x.1.raw ++ c!" defines partof=" ++ q.raw ++ c!" which does not exist") := by
  unfold lintPartofDne
  simp only [List.mem_flatMap, List.mem_filterMap]
  constructor
  · rintro ⟨x, hx, q, hq, h⟩
    split at h
    · cases h
    · rename_i hc; cases h; exact ⟨x, hx, q, hq, by simpa using hc, rfl⟩
  · rintro ⟨x, hx, q, hq, hc, rfl⟩
    exact ⟨x, hx, q, hq, by rw [hc]; simp⟩

theorem mem_types {p : Project} {l : Lint} : l ∈ lintPartofTypes p ↔ ∃ x ∈ p.artifacts, ∃ q ∈ x.2.partof, invalidTypes x.1.ty q.ty = true ∧
    l = artLint .error x.2.file (x.1.raw ++ c!" cannot have `partof` " ++ q.raw ++ c!": invalid types.") := by
  unfold lintPartofTypes
  simp only [List.mem_flatMap, List.mem_filterMap]
  constructor
  · rintro ⟨x, hx, q, hq, h⟩
    split at h
    · rename_i hc; cases h; exact ⟨x, hx, q, hq, hc, rfl⟩
    · cases h
  · rintro ⟨x, hx, q, hq, hc, rfl⟩
    exact ⟨x, hx, q, hq, by rw [hc]; simp⟩

theorem mem_doneSub {p : Project} {l : Lint} : l ∈ lintDoneSubnames p ↔ ∃ x ∈ p.artifacts, x.2.impl.isDone = true ∧ x.2.subnames ≠ [] ∧
    l = artLint .error x.2.file (x.1.raw ++ c!": subnames are defined when the `done` field is set.") := by
  unfold lintDoneSubnames
  simp only [List.mem_filterMap]
  constructor
  · rintro ⟨x, hx, h⟩
    split at h
    · rename_i hc
      cases h
      simp at hc
      exact ⟨x, hx, hc.1, hc.2, rfl⟩
    · cases h
  · rintro ⟨x, hx, h1, h2, rfl⟩
    exact ⟨x, hx, by rw [h1]; simp [h2]⟩

/-- The two kinds of text errors. -/
theorem mem_text {p : Project} {l : Lint} : l ∈ lintText L p ↔ ∃ x ∈ p.artifacts, ∃ line ∈ lines x.2.text,
    (NameLine L.fold p.settings.pre line ∧
      l = artLint .error x.2.file (x.1.raw ++ c!" text is invalid: Cannot have a line of the form \"# ART-name\" as that specifies a new artifact in the markdown format.")) ∨
    (¬ NameLine L.fold p.settings.pre line ∧ EndLine line ∧
      l = artLint .error x.2.file (x.1.raw ++ c!" text is invalid: Cannot have a line of the form \"###+\" as that specifies the end of the metadata in the markdown format.")) := by
  unfold lintText
  simp only [List.mem_flatMap]
  refine exists_congr fun x => and_congr_right fun _ => exists_congr fun line => and_congr_right fun _ => ?_
  unfold textLintLine
  rw [← nameLine_iff, ← endLine_iff]
  split
  · rename_i h
    rw [List.mem_singleton]
    constructor
    · intro e; exact Or.inl ⟨h, e⟩
    · rintro (⟨_, e⟩ | ⟨h', _⟩)
      · exact e
      · exact absurd h h'
  · rename_i h
    split
    · rename_i h'
      rw [List.mem_singleton]
      constructor
      · intro e; exact Or.inr ⟨h, h', e⟩
      · rintro (⟨h', _⟩ | ⟨_, _, e⟩)
        · exact absurd h' h
        · exact e
    · rename_i h'
      constructor
      · intro e; simp at e
      · rintro (⟨hh, _⟩ | ⟨_, hh, _⟩)
        · exact absurd hh h
        · exact absurd hh h'

/-- The artifacts of a project and their names. -/
theorem arts_mem (inp : LoadInput ims defined) (h : Loads hash ims code defined arts) {x : Name × Artifact} (hx : x ∈ arts) :
    x.2 ∈ arts.map Prod.snd ∧ x.2.name = x.1 := ⟨List.mem_map.2 ⟨x, hx, rfl⟩, (h.spec inp).2.1 x hx⟩

theorem arts_contains (inp : LoadInput ims defined) (h : Loads hash ims code defined arts) (n : Name) :
    IMap.contains arts n = true ↔ ∃ a ∈ arts.map Prod.snd, key a.name = key n := by
  rw [IMap.contains_iff]
  constructor
  · rintro ⟨x, hx, hk⟩
    exact ⟨x.2, (arts_mem inp h hx).1, by rw [(arts_mem inp h hx).2]; exact hk⟩
  · rintro ⟨a, ha, hk⟩
    obtain ⟨x, hx, rfl⟩ := List.mem_map.1 ha
    exact ⟨x, hx, by rw [← (arts_mem inp h hx).2]; exact hk⟩

/-- A fatal lint is one of four kinds, and its message tells which. -/
theorem fatal_cases {p : Project} {l : Lint} (h : l ∈ p.lintErrors L) :
    (∃ x ∈ p.artifacts, ∃ q ∈ x.2.partof, IMap.contains p.artifacts q = false ∧
      l = artLint .error x.2.file (x.1.raw ++ ' ' :: (c!"defines partof=" ++ q.raw ++ c!" which does not exist"))) ∨
    (∃ x ∈ p.artifacts, ∃ q ∈ x.2.partof, invalidTypes x.1.ty q.ty = true ∧
      l = artLint .error x.2.file (x.1.raw ++ ' ' :: (c!"cannot have `partof` " ++ q.raw ++ c!": invalid types."))) ∨
    (∃ x ∈ p.artifacts, ∃ line ∈ lines x.2.text, (NameLine L.fold p.settings.pre line ∨ EndLine line) ∧
      ∃ r, l = artLint .error x.2.file (x.1.raw ++ ' ' :: (c!"text is invalid: " ++ r))) ∨
    (∃ x ∈ p.artifacts, x.2.impl.isDone = true ∧ x.2.subnames ≠ [] ∧
      l = artLint .error x.2.file (x.1.raw ++ ':' :: ' ' :: c!"subnames are defined when the `done` field is set.")) := by
  unfold Project.lintErrors at h
  simp only [List.mem_append] at h
  rcases h with ((h | h) | h) | h
  · obtain ⟨x, hx, q, hq, hc, rfl⟩ := mem_dne.1 h
    exact Or.inl ⟨x, hx, q, hq, hc, by simp⟩
  · obtain ⟨x, hx, q, hq, hc, rfl⟩ := mem_types.1 h
    exact Or.inr (Or.inl ⟨x, hx, q, hq, hc, by simp⟩)
  · obtain ⟨x, hx, line, hline, hh⟩ := mem_text.1 h
    refine Or.inr (Or.inr (Or.inl ⟨x, hx, line, hline, ?_⟩))
    rcases hh with ⟨hn, rfl⟩ | ⟨_, hn, rfl⟩
    · exact ⟨Or.inl hn, _, rfl⟩
    · exact ⟨Or.inr hn, _, rfl⟩
  · obtain ⟨x, hx, h1, h2, rfl⟩ := mem_doneSub.1 h
    exact Or.inr (Or.inr (Or.inr ⟨x, hx, h1, h2, rfl⟩))

theorem msg_cons {n n' : Name} {c : Char} {r r' : Str} {f : FilePath} (hc : nameCharI c = false ∧ c ≠ '-')
    (h : (artLint .error f (n.raw ++ c :: r)).msg = n'.raw ++ c :: r') : n = n' ∧ r = r' := msg_unique hc h

theorem name_eq_of_suffix {q q' : Name} {c : Char} {r r' : Str} (hc : nameCharI c = false ∧ c ≠ '-') (h : q.raw ++ (c :: r) = q'.raw ++ (c :: r')) :
    q = q' := (msg_unique hc h).1

theorem blank_out : nameCharI ' ' = false ∧ ' ' ≠ '-' := by decide
theorem colon_out : nameCharI ':' = false ∧ ':' ≠ '-' := by decide

/-! ## C13 -/

/-- The error for a link to nowhere is there, at the file of the artifact, exactly for the shown links to names that no artifact has. -/
theorem C13_reported_each (inp : LoadInput ims defined) (h : Loads hash ims code defined arts) {ls : List Lint}
    (hl : Reported L ⟨st, code, arts⟩ ls) (f : FilePath) (n q : Name) :
    (∃ l ∈ ls, l.level = .error ∧ l.category = .artifact ∧ l.path = some f ∧
      l.msg = n.raw ++ c!" defines partof=" ++ q.raw ++ c!" which does not exist") ↔
    ∃ a ∈ artsOf arts, a.name = n ∧ a.file = f ∧ q ∈ a.partof ∧ ∀ b ∈ artsOf arts, key b.name ≠ key q := by
  constructor
  · rintro ⟨l, hm, h1, h2, hp, hmsg⟩
    rw [mem_lint_fatal hl h1 h2] at hm
    simp only [List.append_assoc, List.cons_append, List.nil_append] at hmsg
    rcases fatal_cases hm with ⟨x, hx, q', hq', hc, rfl⟩ | ⟨x, hx, q', hq', hc, rfl⟩ | ⟨x, hx, line, _, _, r, rfl⟩ | ⟨x, hx, _, _, rfl⟩
    · obtain ⟨e1, e2⟩ := msg_cons blank_out hmsg
      simp only [List.cons_append, List.nil_append, List.cons.injEq, true_and] at e2
      have e3 := name_eq_of_suffix blank_out e2
      subst e3
      obtain ⟨ha, hn⟩ := arts_mem inp h hx
      refine ⟨x.2, ha, hn.trans e1, Option.some.inj hp, hq', ?_⟩
      intro b hb hk
      have : IMap.contains arts q' = true := (arts_contains inp h q').2 ⟨b, hb, hk⟩
      have hc : IMap.contains arts q' = false := hc
      rw [this] at hc; cases hc
    · obtain ⟨_, e2⟩ := msg_cons blank_out hmsg
      simp at e2
    · obtain ⟨_, e2⟩ := msg_cons blank_out hmsg
      simp at e2
    · exact (msg_done_ne (show _ = x.1.raw ++ ':' :: ' ' :: _ from hmsg.symm)).elim
  · rintro ⟨a, ha, rfl, rfl, hq, hno⟩
    obtain ⟨x, hx, rfl⟩ := List.mem_map.1 ha
    rw [(arts_mem inp h hx).2]
    refine ⟨artLint .error x.2.file (x.1.raw ++ c!" defines partof=" ++ q.raw ++ c!" which does not exist"), ?_, rfl, rfl, rfl, rfl⟩
    rw [mem_lint_fatal hl rfl rfl]
    unfold Project.lintErrors
    simp only [List.mem_append]
    refine Or.inl (Or.inl (Or.inl (mem_dne.2 ⟨x, hx, q, hq, ?_, rfl⟩)))
    rw [Bool.eq_false_iff]
    intro hc
    obtain ⟨b, hb, hk⟩ := (arts_contains inp h q).1 hc
    exact hno b hb hk

/-- Hence there is such an error exactly when an artifact is written with a link to a name that no artifact has: automatic links are never
reported. -/
theorem C13_reported (inp : LoadInput ims defined) (h : Loads hash ims code defined arts) {ls : List Lint}
    (hl : Reported L ⟨st, code, arts⟩ ls) :
    (∃ l ∈ ls, l.level = .error ∧ l.category = .artifact ∧
      ∃ n q : Name, l.msg = n.raw ++ c!" defines partof=" ++ q.raw ++ c!" which does not exist") ↔
    ∃ x ∈ ims, ∃ q ∈ x.2.partof, ∀ y ∈ ims, key y.1 ≠ key q := by
  obtain ⟨_, _, _, hnd, hex, hs, _, _⟩ := h.spec inp
  have hno : ∀ q : Name, (∀ b ∈ artsOf arts, key b.name ≠ key q) ↔ ∀ y ∈ ims, key y.1 ≠ key q := by
    intro q
    have := (hex q).trans IMap.contains_iff
    constructor
    · intro h1 y hy e
      obtain ⟨b, hb, hk⟩ := this.2 ⟨y, hy, e⟩
      exact h1 b hb hk
    · intro h1 b hb e
      obtain ⟨y, hy, hk⟩ := this.1 ⟨b, hb, e⟩
      exact h1 y hy hk
  constructor
  · rintro ⟨l, hm, h1, h2, n, q, hmsg⟩
    have hp : ∃ f, l.path = some f := by
      rcases fatal_cases ((mem_lint_fatal hl h1 h2).1 hm) with ⟨x, _, _, _, _, rfl⟩ | ⟨x, _, _, _, _, rfl⟩ | ⟨x, _, _, _, _, _, rfl⟩ | ⟨x, _, _, _, rfl⟩ <;>
        exact ⟨_, rfl⟩
    obtain ⟨f, hp⟩ := hp
    obtain ⟨a, ha, _, _, hq, hn⟩ := (C13_reported_each inp h hl f n q).1 ⟨l, hm, h1, h2, hp, hmsg⟩
    rw [hno] at hn
    obtain ⟨im, hi⟩ := hs _ ha
    rcases (hi.partOf q).1 ⟨q, hq, rfl⟩ with ⟨z, hz, hk⟩ | ⟨_, y, hy, hk⟩
    · obtain ⟨n', hk', hmem⟩ := IMap.mem_of_get? hi.mem
      exact ⟨_, hmem, z, hz, fun y hy e => hn y hy (e.trans hk)⟩
    · exact absurd hk (hn y hy)
  · rintro ⟨x, hx, q, hq, hn⟩
    obtain ⟨a, ha, hk⟩ := (hex x.1).2 (IMap.contains_iff.2 ⟨x, hx, rfl⟩)
    obtain ⟨im, hi⟩ := hs _ ha
    have him : im = x.2 := by
      have h1 := IMap.get?_of_mem inp.nodup hx
      rw [← IMap.get?_congr _ hk, hi.mem] at h1
      exact Option.some.inj h1
    subst him
    obtain ⟨q', hq', hkq⟩ := (hi.partOf q).2 (Or.inl ⟨q, hq, rfl⟩)
    obtain ⟨l, hm, h1, h2, _, hmsg⟩ := (C13_reported_each inp h hl a.file a.name q').2
      ⟨a, ha, rfl, rfl, hq', (hno q').2 (fun y hy e => hn y hy (e.trans hkq))⟩
    exact ⟨l, hm, h1, h2, _, _, hmsg⟩

/-- Without errors every shown link leads to an artifact. -/
theorem C13_resolvable (inp : LoadInput ims defined) (h : Loads hash ims code defined arts) {ls : List Lint}
    (hl : Reported L ⟨st, code, arts⟩ ls) (he : ∀ l ∈ ls, l.level ≠ .error) :
    ∀ a ∈ artsOf arts, ∀ q ∈ a.partof, ∃ b ∈ artsOf arts, key b.name = key q := by
  intro a ha q hq
  by_contra hno
  push Not at hno
  obtain ⟨l, hm, h1, _⟩ := (C13_reported_each inp h hl a.file a.name q).2 ⟨a, ha, rfl, rfl, hq, hno⟩
  exact he l hm h1

/-! ## C14 -/

theorem invalidTypes_iff (a b : Ty) : invalidTypes a b = true ↔ tyRank b < tyRank a := by
  cases a <;> cases b <;> decide

/-- The type error is there, at the file of the artifact, exactly for the shown links to a lower type. -/
theorem C14_reported_each (inp : LoadInput ims defined) (h : Loads hash ims code defined arts) {ls : List Lint}
    (hl : Reported L ⟨st, code, arts⟩ ls) (f : FilePath) (n q : Name) :
    (∃ l ∈ ls, l.level = .error ∧ l.category = .artifact ∧ l.path = some f ∧
      l.msg = n.raw ++ c!" cannot have `partof` " ++ q.raw ++ c!": invalid types.") ↔
    ∃ a ∈ artsOf arts, a.name = n ∧ a.file = f ∧ q ∈ a.partof ∧ tyRank q.ty < tyRank n.ty := by
  constructor
  · rintro ⟨l, hm, h1, h2, hp, hmsg⟩
    rw [mem_lint_fatal hl h1 h2] at hm
    simp only [List.append_assoc, List.cons_append, List.nil_append] at hmsg
    rcases fatal_cases hm with ⟨x, hx, q', hq', hc, rfl⟩ | ⟨x, hx, q', hq', hc, rfl⟩ | ⟨x, hx, line, _, _, r, rfl⟩ | ⟨x, hx, _, _, rfl⟩
    · obtain ⟨_, e2⟩ := msg_cons blank_out hmsg
      simp at e2
    · obtain ⟨e1, e2⟩ := msg_cons blank_out hmsg
      simp only [List.cons_append, List.nil_append, List.cons.injEq, true_and] at e2
      have e3 := name_eq_of_suffix colon_out e2
      subst e3
      obtain ⟨ha, hn⟩ := arts_mem inp h hx
      exact ⟨x.2, ha, hn.trans e1, Option.some.inj hp, hq', by rw [← e1]; exact (invalidTypes_iff _ _).1 hc⟩
    · obtain ⟨_, e2⟩ := msg_cons blank_out hmsg
      simp at e2
    · exact (msg_done_ne (show _ = x.1.raw ++ ':' :: ' ' :: _ from hmsg.symm)).elim
  · rintro ⟨a, ha, rfl, rfl, hq, hno⟩
    obtain ⟨x, hx, rfl⟩ := List.mem_map.1 ha
    rw [(arts_mem inp h hx).2] at hno ⊢
    refine ⟨artLint .error x.2.file (x.1.raw ++ c!" cannot have `partof` " ++ q.raw ++ c!": invalid types."), ?_, rfl, rfl, rfl, rfl⟩
    rw [mem_lint_fatal hl rfl rfl]
    unfold Project.lintErrors
    simp only [List.mem_append]
    exact Or.inl (Or.inl (Or.inr (mem_types.2 ⟨x, hx, q, hq, (invalidTypes_iff _ _).2 hno, rfl⟩)))

theorem key_ty {n q : Name} (h : key n = key q) : n.ty = q.ty := congrArg Prod.fst h

/-- Automatic links never lead to a lower type. -/
theorem C14_auto {n q : Name} (h : AutoLink n q) : tyRank n.ty ≤ tyRank q.ty := by
  obtain ⟨p, hp, hk⟩ := h
  rw [← key_ty hk]
  rcases hp with hp | hp
  · rcases C04_parent n with ⟨_, h⟩ | ⟨_, m, w, h, _, _, _, ht, _⟩
    · rw [h] at hp; cases hp
    · rw [h] at hp; cases hp; rw [ht]
  · rcases C04_autoPartof n with ⟨_, h⟩ | ⟨m, h, _, ht⟩
    · rw [h] at hp; cases hp
    · rw [h] at hp
      cases hp
      rcases ht with ⟨h1, h2, _⟩ | ⟨h1, h2, _⟩ <;> rw [h1, h2] <;> decide

/-- Hence there is a type error exactly when an artifact is written with a link to a lower type: `REQ` to `SPC` or `TST`, `SPC` to `TST`. -/
theorem C14_reported (inp : LoadInput ims defined) (h : Loads hash ims code defined arts) {ls : List Lint}
    (hl : Reported L ⟨st, code, arts⟩ ls) :
    (∃ l ∈ ls, l.level = .error ∧ l.category = .artifact ∧
      ∃ n q : Name, l.msg = n.raw ++ c!" cannot have `partof` " ++ q.raw ++ c!": invalid types.") ↔
    ∃ x ∈ ims, ∃ q ∈ x.2.partof, (x.1.ty = .REQ ∧ q.ty ≠ .REQ) ∨ (x.1.ty = .SPC ∧ q.ty = .TST) := by
  have hr : ∀ a b : Ty, tyRank b < tyRank a ↔ (a = .REQ ∧ b ≠ .REQ) ∨ (a = .SPC ∧ b = .TST) := by
    intro a b; cases a <;> cases b <;> decide
  simp only [← hr]
  obtain ⟨_, _, _, hnd, hex, hs, _, _⟩ := h.spec inp
  constructor
  · rintro ⟨l, hm, h1, h2, n, q, hmsg⟩
    have hp : ∃ f, l.path = some f := by
      rcases fatal_cases ((mem_lint_fatal hl h1 h2).1 hm) with ⟨x, _, _, _, _, rfl⟩ | ⟨x, _, _, _, _, rfl⟩ | ⟨x, _, _, _, _, _, rfl⟩ | ⟨x, _, _, _, rfl⟩ <;>
        exact ⟨_, rfl⟩
    obtain ⟨f, hp⟩ := hp
    obtain ⟨a, ha, rfl, _, hq, hn⟩ := (C14_reported_each inp h hl f n q).1 ⟨l, hm, h1, h2, hp, hmsg⟩
    obtain ⟨im, hi⟩ := hs _ ha
    rcases (hi.partOf q).1 ⟨q, hq, rfl⟩ with ⟨z, hz, hk⟩ | ⟨hauto, _⟩
    · obtain ⟨n', hk', hmem⟩ := IMap.mem_of_get? hi.mem
      exact ⟨_, hmem, z, hz, by rw [key_ty hk, key_ty hk']; exact hn⟩
    · exact absurd (C14_auto hauto) (by omega)
  · rintro ⟨x, hx, q, hq, hn⟩
    obtain ⟨a, ha, hk⟩ := (hex x.1).2 (IMap.contains_iff.2 ⟨x, hx, rfl⟩)
    obtain ⟨im, hi⟩ := hs _ ha
    have him : im = x.2 := by
      have h1 := IMap.get?_of_mem inp.nodup hx
      rw [← IMap.get?_congr _ hk, hi.mem] at h1
      exact Option.some.inj h1
    subst him
    obtain ⟨q', hq', hkq⟩ := (hi.partOf q).2 (Or.inl ⟨q, hq, rfl⟩)
    obtain ⟨l, hm, h1, h2, _, hmsg⟩ := (C14_reported_each inp h hl a.file a.name q').2
      ⟨a, ha, rfl, rfl, hq', by rw [key_ty hkq, key_ty hk]; exact hn⟩
    exact ⟨l, hm, h1, h2, _, _, hmsg⟩

/-- Without errors the type never decreases along links, at any distance: a requirement is never part of a specification or test, and a
specification never part of a test. -/
theorem C14_order (inp : LoadInput ims defined) (h : Loads hash ims code defined arts) {ls : List Lint}
    (hl : Reported L ⟨st, code, arts⟩ ls) (he : ∀ l ∈ ls, l.level ≠ .error) {b a : Artifact}
    (hba : Relation.TransGen (DirectPart (artsOf arts)) b a) : tyRank b.name.ty ≤ tyRank a.name.ty := by
  have step : ∀ {b a}, DirectPart (artsOf arts) b a → tyRank b.name.ty ≤ tyRank a.name.ty := by
    rintro b a ⟨hb, _, q, hq, hk⟩
    rw [← key_ty hk]
    by_contra hlt
    obtain ⟨l, hm, h1, _⟩ := (C14_reported_each inp h hl b.file b.name q).2 ⟨b, hb, rfl, rfl, hq, by omega⟩
    exact he l hm h1
  induction hba with
  | single hd => exact step hd
  | tail _ hd ih => exact ih.trans (step hd)

/-! ## C44 -/

theorem subs_ne_nil {text : Str} {l : ISet SubName} (h : parseSubnames text = .ok l) : l ≠ [] ↔ ∃ sub, DefinesSub text sub := by
  obtain ⟨l', h1, _, h3, h4⟩ := C08_subnames text
  rw [h] at h1
  cases Res.ok.inj h1
  constructor
  · intro hne
    obtain ⟨x, hx⟩ := List.exists_mem_of_ne_nil _ hne
    exact ⟨x, (h3 x).1 ⟨x, hx, rfl⟩⟩
  · rintro ⟨sub, hd⟩ rfl
    obtain ⟨x, hx, _⟩ := (h3 sub).2 hd
    cases hx

/-- The error is there exactly for the artifacts that are defined as done and have a subname in their text. -/
theorem C44_reported (inp : LoadInput ims defined) (h : Loads hash ims code defined arts) {ls : List Lint}
    (hl : Reported L ⟨st, code, arts⟩ ls) (f : FilePath) (n : Name) :
    (∃ l ∈ ls, l.level = .error ∧ l.category = .artifact ∧ l.path = some f ∧
      l.msg = n.raw ++ c!": subnames are defined when the `done` field is set.") ↔
    ∃ a ∈ artsOf arts, a.name = n ∧ a.file = f ∧
      ∃ im, IMap.get? ims n = some im ∧ im.done ≠ none ∧ ∃ sub, DefinesSub im.text sub := by
  have hdone : ∀ {a im}, ArtSpec hash ims code (arts.map Prod.snd) a im → (a.impl.isDone = true ↔ im.done ≠ none) := by
    intro a im hi
    rw [hi.impl]
    unfold implOf
    cases im.done with
    | some d => simp [Impl.isDone]
    | none => cases IMap.get? code a.name <;> simp [Impl.isDone]
  obtain ⟨_, _, _, hnd, hex, hs, _, _⟩ := h.spec inp
  constructor
  · rintro ⟨l, hm, h1, h2, hp, hmsg⟩
    rw [mem_lint_fatal hl h1 h2] at hm
    rcases fatal_cases hm with ⟨x, hx, q', hq', hc, rfl⟩ | ⟨x, hx, q', hq', hc, rfl⟩ | ⟨x, hx, line, _, _, r, rfl⟩ | ⟨x, hx, hd, hsub, rfl⟩
    · exact (msg_done_ne hmsg).elim
    · exact (msg_done_ne hmsg).elim
    · exact (msg_done_ne hmsg).elim
    · obtain ⟨e1, _⟩ := msg_cons colon_out hmsg
      obtain ⟨ha, hn⟩ := arts_mem inp h hx
      obtain ⟨im, hi⟩ := hs _ ha
      refine ⟨x.2, ha, hn.trans e1, Option.some.inj hp, im, ?_, (hdone hi).1 hd, (subs_ne_nil hi.subs).1 hsub⟩
      rw [← e1, ← hn]; exact hi.mem
  · rintro ⟨a, ha, rfl, rfl, im, him, hd, hsub⟩
    obtain ⟨im', hi⟩ := hs _ ha
    rw [hi.mem] at him
    cases him
    obtain ⟨x, hx, rfl⟩ := List.mem_map.1 ha
    refine ⟨artLint .error x.2.file (x.1.raw ++ c!": subnames are defined when the `done` field is set."), ?_, rfl, rfl, rfl,
      by rw [(arts_mem inp h hx).2]; rfl⟩
    rw [mem_lint_fatal hl rfl rfl]
    unfold Project.lintErrors
    simp only [List.mem_append]
    exact Or.inr (mem_doneSub.2 ⟨x, hx, (hdone hi).2 hd, (subs_ne_nil hi.subs).2 hsub, rfl⟩)

/-- `done` overrides the code: whatever is referenced for artifacts that are done, the loaded artifacts are the same. -/
theorem C44_done_overrides {code' : IMap Name ImplCode}
    (hc : ∀ x ∈ ims, x.2.done = none → IMap.get? code x.1 = IMap.get? code' x.1) (h : Loads hash ims code defined arts) :
    Loads hash ims code' defined arts := by
  obtain ⟨l, topo, hl, ht, ha⟩ := h
  refine ⟨l, topo, hl, ht, ?_⟩
  have e : l.ims = ims := by
    unfold finalizeLoadArtifact at hl
    obtain ⟨_, _, hl⟩ := Res.bind_eq_ok.1 hl
    obtain ⟨_, _, hl⟩ := Res.bind_eq_ok.1 hl
    obtain ⟨_, _, hl⟩ := Res.bind_eq_ok.1 hl
    obtain ⟨_, _, hl⟩ := Res.bind_eq_ok.1 hl
    cases hl; rfl
  have e2 : determineImpls l.ims code = determineImpls l.ims code' := by
    unfold determineImpls
    rw [e]
    congr 1
    refine List.map_congr_left fun x hx => ?_
    have := hc x hx
    unfold implOf
    cases hd : x.2.done with
    | some d => rfl
    | none => simp only; rw [this hd]
  unfold determineArtifacts at ha ⊢
  rw [← e2]
  exact ha

/-! ## C42 -/

/-- The text error is there exactly for the artifacts with a line that starts an artifact or ends attributes. -/
theorem C42_reported (inp : LoadInput ims defined) (h : Loads hash ims code defined arts) {ls : List Lint}
    (hl : Reported L ⟨st, code, arts⟩ ls) (f : FilePath) (n : Name) :
    (∃ l ∈ ls, l.level = .error ∧ l.category = .artifact ∧ l.path = some f ∧ ∃ r, l.msg = n.raw ++ c!" text is invalid: " ++ r) ↔
    ∃ a ∈ artsOf arts, a.name = n ∧ a.file = f ∧ ∃ line ∈ lines a.text, NameLine L.fold st.pre line ∨ EndLine line := by
  constructor
  · rintro ⟨l, hm, h1, h2, hp, r, hmsg⟩
    rw [mem_lint_fatal hl h1 h2] at hm
    simp only [List.append_assoc, List.cons_append, List.nil_append] at hmsg
    rcases fatal_cases hm with ⟨x, hx, q', hq', hc, rfl⟩ | ⟨x, hx, q', hq', hc, rfl⟩ | ⟨x, hx, line, hl1, hl2, r, rfl⟩ | ⟨x, hx, _, _, rfl⟩
    · obtain ⟨_, e2⟩ := msg_cons blank_out hmsg
      simp at e2
    · obtain ⟨_, e2⟩ := msg_cons blank_out hmsg
      simp at e2
    · obtain ⟨e1, _⟩ := msg_cons blank_out hmsg
      obtain ⟨ha, hn⟩ := arts_mem inp h hx
      exact ⟨x.2, ha, hn.trans e1, Option.some.inj hp, line, hl1, hl2⟩
    · exact (msg_done_ne (show _ = x.1.raw ++ ':' :: ' ' :: _ from hmsg.symm)).elim
  · rintro ⟨a, ha, rfl, rfl, line, hl1, hl2⟩
    obtain ⟨x, hx, rfl⟩ := List.mem_map.1 ha
    rw [(arts_mem inp h hx).2]
    by_cases hn : NameLine L.fold st.pre line
    · refine ⟨artLint .error x.2.file (x.1.raw ++ c!" text is invalid: Cannot have a line of the form \"# ART-name\" as that specifies a new artifact in the markdown format."),
        ?_, rfl, rfl, rfl, c!"Cannot have a line of the form \"# ART-name\" as that specifies a new artifact in the markdown format.", by simp [artLint]⟩
      rw [mem_lint_fatal hl rfl rfl]
      unfold Project.lintErrors
      simp only [List.mem_append]
      exact Or.inl (Or.inr (mem_text.2 ⟨x, hx, line, hl1, Or.inl ⟨hn, rfl⟩⟩))
    · refine ⟨artLint .error x.2.file (x.1.raw ++ c!" text is invalid: Cannot have a line of the form \"###+\" as that specifies the end of the metadata in the markdown format."),
        ?_, rfl, rfl, rfl, c!"Cannot have a line of the form \"###+\" as that specifies the end of the metadata in the markdown format.", by simp [artLint]⟩
      rw [mem_lint_fatal hl rfl rfl]
      unfold Project.lintErrors
      simp only [List.mem_append]
      exact Or.inl (Or.inr (mem_text.2 ⟨x, hx, line, hl1, Or.inr ⟨hn, hl2.resolve_left hn, rfl⟩⟩))

/-- A project without errors: the artifacts of any markdown file, written and read again, are the same artifacts, if no text opens an
attribute block or has carriage returns at line ends (two things the lint does not look at). -/
theorem C42_safe (inp : LoadInput ims defined) (h : Loads hash ims code defined arts) {ls : List Lint}
    (hl : Reported L ⟨st, code, arts⟩ ls) (he : ∀ l ∈ ls, l.level ≠ .error) (hst : SettingsOk st.pre st.mdAttrs)
    (hims : ∀ x ∈ ims, x.2.name = x.1 ∧ ISet.Nodup x.2.partof ∧ x.2.clean = x.2 ∧ YamlOk L (intoRaw x.2).2.2)
    (hfence : ∀ x ∈ ims, ¬ c!"\r\n" <:+: x.2.text ∧ ∀ line ∈ lines x.2.text, ¬ FenceLine line)
    (f : FilePath) (hf : ArtFileType.fromPath f = some .md) :
    let file := (ims.map Prod.snd).filter (fun im => im.file = f)
    ∃ s, toMarkdown L st.pre st.mdAttrs (file.map (fun im => (intoRaw im).2)) = .ok s ∧ loadFile L st.pre f (.text s) = .ok (file, []) := by
  intro file
  obtain ⟨_, _, _, hnd, hex, hs, _, _⟩ := h.spec inp
  refine C21_save_load L st.pre st.mdAttrs f file hst hf ?_ ?_
  · refine List.Pairwise.filter _ ?_
    have := inp.nodup
    unfold IMap.Nodup at this
    rw [List.Nodup, List.pairwise_map] at this
    rw [List.pairwise_map]
    refine this.imp_of_mem ?_
    intro x y hx hy hk
    rw [(hims x hx).1, (hims y hy).1]
    exact hk
  · intro im him
    obtain ⟨h1, h2⟩ := List.mem_filter.1 him
    obtain ⟨x, hx, rfl⟩ := List.mem_map.1 h1
    obtain ⟨hn, hpn, hcl, hy⟩ := hims x hx
    refine ⟨⟨hpn, hcl, ?_, hy⟩, by simpa using h2⟩
    intro hne
    obtain ⟨a, ha, hk⟩ := (hex x.1).2 (IMap.contains_iff.2 ⟨x, hx, rfl⟩)
    obtain ⟨im, hi⟩ := hs _ ha
    have him : im = x.2 := by
      have h1 := IMap.get?_of_mem inp.nodup hx
      rw [← IMap.get?_congr _ hk, hi.mem] at h1
      exact Option.some.inj h1
    subst him
    refine ⟨hne, ?_, (hfence x hx).1, ?_⟩
    · have := congrArg ArtifactIm.text hcl
      exact this
    · intro line hline
      have hno : ¬ (NameLine L.fold st.pre line ∨ EndLine line) := by
        intro hh
        obtain ⟨l, hm, h1, _⟩ := (C42_reported inp h hl a.file a.name).2 ⟨a, ha, rfl, rfl, line, by rw [hi.text]; exact hline, hh⟩
        exact he l hm h1
      exact ⟨fun h => hno (Or.inl h), fun h => hno (Or.inr h), (hfence x hx).2 line hline⟩

/-! ## C40 -/

theorem mapM'_total {ε α β : Type} {f : α → Res ε β} {l : List α} (h : ∀ a ∈ l, ∀ e, f a ≠ .err e) :
    (∀ e, Res.mapM' f l ≠ .err e) ∧ (Res.mapM' f l = .panic ↔ ∃ a ∈ l, f a = .panic) := by
  induction l with
  | nil => simp [Res.mapM']
  | cons a l ih =>
    obtain ⟨h1, h2⟩ := ih (fun x hx => h x (by simp [hx]))
    unfold Res.mapM'
    cases hf : f a with
    | ok b =>
      cases hm : Res.mapM' f l with
      | ok bs =>
        rw [hm] at h2
        refine ⟨fun e he => (by cases he), Iff.intro (fun h => by cases h) ?_⟩
        rintro ⟨x, hx, hp⟩
        rcases List.mem_cons.1 hx with rfl | hx
        · rw [hf] at hp; cases hp
        · exact absurd (h2.2 ⟨x, hx, hp⟩) (by simp)
      | err e => exact absurd hm (h1 e)
      | panic =>
        obtain ⟨x, hx, hp⟩ := h2.1 hm
        exact ⟨fun e he => (by cases he), Iff.intro (fun _ => ⟨x, by simp [hx], hp⟩) (fun _ => rfl)⟩
    | err e => exact absurd hf (h a (by simp) e)
    | panic => exact ⟨fun e he => (by cases he), Iff.intro (fun _ => ⟨a, by simp, hf⟩) (fun _ => rfl)⟩

theorem bind_flatten {ε α : Type} {r : Res ε (List (List α))} : ((r >>= fun l => pure l.flatten : Res ε (List α)) = .panic ↔ r = .panic) ∧
    ∀ e, (r >>= fun l => pure l.flatten : Res ε (List α)) = .err e ↔ r = .err e := by
  cases r with
  | ok a => exact ⟨Iff.intro (fun h => by cases h) (fun h => by cases h), fun e => Iff.intro (fun h => by cases h) (fun h => by cases h)⟩
  | err a => exact ⟨Iff.intro (fun h => by cases h) (fun h => by cases h), fun e => Iff.intro (fun h => by cases h; rfl) (fun h => by cases h; rfl)⟩
  | panic => exact ⟨Iff.intro (fun h => rfl) (fun h => rfl), fun e => Iff.intro (fun h => by cases h) (fun h => by cases h)⟩

theorem writesRef_iff {text n : Str} {sub : Option SubName} : WritesRef text n sub ↔
    ∃ m ∈ Re.findIter textRefRe text, Caps.get m.2.2 1 = some n ∧ Caps.get m.2.2 2 = sub.map SubName.raw := by
  refine Iff.trans ?_ (mem_findIter_textRef text n (sub.map SubName.raw)).symm
  unfold WritesRef
  rw [nameLike_iff]
  refine and_congr_right fun _ => and_congr ?_ ?_
  · cases sub with
    | none => simp
    | some s => simp [subLike_iff]
  · cases sub with
    | none => exact Iff.rfl
    | some s => exact Iff.rfl

theorem refLintOf_ne_err {p : Project} {n : Name} {f : FilePath} {m : Match} (e : Unit) : refLintOf p n f m ≠ .err e := by
  unfold refLintOf
  split
  · simp
  · split <;> simp

/-- The lints of a project are computed, or the program crashes: it does exactly when some text has a reference with a name that is
recognised as a name but has no type (a long s in `ſPC` or `TſT`). -/
theorem C40_crash (p : Project) : (∃ ls, p.lint L = .ok ls) ∨ p.lint L = .panic ∧
    ∃ x ∈ p.artifacts, ∃ s sub, WritesRef x.2.text s sub ∧ Name.fromStr s = .panic := by
  have key : ∀ x : Name × Artifact, (∀ e, refLintsOf p x ≠ .err e) ∧
      (refLintsOf p x = .panic → ∃ s sub, WritesRef x.2.text s sub ∧ Name.fromStr s = .panic) := by
    intro x
    obtain ⟨h1, h2⟩ := mapM'_total (f := refLintOf p x.1 x.2.file) (l := Re.findIter textRefRe x.2.text) (fun m _ e => refLintOf_ne_err e)
    unfold refLintsOf
    refine ⟨fun e he => h1 e ((bind_flatten.2 e).1 he), fun hp => ?_⟩
    obtain ⟨m, hm, hp⟩ := h2.1 (bind_flatten.1.1 hp)
    obtain ⟨n, s, g1, g2⟩ := findIter_textRef_caps hm
    have hw : WritesRef x.2.text n (s.map SubName.mk) :=
      writesRef_iff.2 ⟨m, hm, g1, by rw [g2, Option.map_map]; cases s <;> rfl⟩
    refine ⟨n, _, hw, ?_⟩
    unfold refLintOf at hp
    rw [g1] at hp
    simp only at hp
    cases hn : Name.fromStr n with
    | ok r => rw [hn] at hp; simp at hp
    | err e => exact absurd hn (hw.1 e)
    | panic => rfl
  obtain ⟨h1, h2⟩ := mapM'_total (f := refLintsOf p) (l := p.artifacts) (fun x _ => (key x).1)
  cases hr : lintTextRefs p with
  | ok refs => exact Or.inl ⟨_, lint_ok.2 ⟨refs, hr, rfl⟩⟩
  | err e => exact absurd ((bind_flatten.2 e).1 hr) (h1 e)
  | panic =>
    right
    refine ⟨?_, ?_⟩
    · unfold Project.lint Project.lintOther; rw [hr]; rfl
    · obtain ⟨x, hx, hp⟩ := h2.1 (bind_flatten.1.1 hr)
      exact ⟨x, hx, (key x).2 hp⟩

/-- The converse: such a reference crashes the program. -/
theorem C40_crash_iff (p : Project) : p.lint L = .panic ↔
    ∃ x ∈ p.artifacts, ∃ s sub, WritesRef x.2.text s sub ∧ Name.fromStr s = .panic := by
  constructor
  · intro h
    rcases C40_crash (L := L) p with ⟨ls, h'⟩ | ⟨_, h'⟩
    · rw [h] at h'; cases h'
    · exact h'
  · rintro ⟨x, hx, s, sub, hw, hp⟩
    obtain ⟨m, hm, g1, g2⟩ := writesRef_iff.1 hw
    have e1 : refLintOf p x.1 x.2.file m = .panic := by
      unfold refLintOf; rw [g1]; simp only; rw [hp]
    have e2 : refLintsOf p x = .panic :=
      bind_flatten.1.2 ((mapM'_total (fun m _ e => refLintOf_ne_err e)).2.2 ⟨m, hm, e1⟩)
    have hne : ∀ x : Name × Artifact, ∀ e, refLintsOf p x ≠ .err e := fun x e he =>
      (mapM'_total (fun m _ e => refLintOf_ne_err e)).1 e ((bind_flatten.2 e).1 he)
    have e3 : lintTextRefs p = .panic := bind_flatten.1.2 ((mapM'_total (fun x _ => hne x)).2.2 ⟨x, hx, e2⟩)
    unfold Project.lint Project.lintOther; rw [e3]; rfl

theorem subs_contains {text : Str} {l : ISet SubName} (h : parseSubnames text = .ok l) (s : SubName) :
    ISet.contains l s = true ↔ DefinesSub text s := by
  obtain ⟨l', h1, _, h3, h4⟩ := C08_subnames text
  rw [h] at h1
  cases Res.ok.inj h1
  rw [ISet.contains_iff]
  exact h3 s

theorem get?_arts (inp : LoadInput ims defined) (h : Loads hash ims code defined arts) (n : Name) :
    (IMap.get? arts n = none ↔ ∀ b ∈ artsOf arts, key b.name ≠ key n) ∧
    ∀ b, IMap.get? arts n = some b ↔ b ∈ artsOf arts ∧ key b.name = key n := by
  obtain ⟨_, hnm, _, hnd, _⟩ := h.spec inp
  have hn : IMap.Nodup arts := by
    unfold IMap.Nodup
    rw [List.map_map] at hnd
    convert hnd using 1
    refine List.map_congr_left fun x hx => ?_
    show key x.1 = key x.2.name
    rw [hnm x hx]
  constructor
  · rw [IMap.get?_eq_none]
    constructor
    · intro hno b hb hk
      obtain ⟨x, hx, rfl⟩ := List.mem_map.1 hb
      exact hno x hx (by rw [← hnm x hx]; exact hk)
    · intro hno x hx hk
      exact hno x.2 (List.mem_map.2 ⟨x, hx, rfl⟩) (by rw [hnm x hx]; exact hk)
  · intro b
    constructor
    · intro hg
      obtain ⟨n', hk, hm⟩ := IMap.mem_of_get? hg
      exact ⟨List.mem_map.2 ⟨_, hm, rfl⟩, by rw [hnm _ hm]; exact hk⟩
    · rintro ⟨hb, hk⟩
      obtain ⟨x, hx, rfl⟩ := List.mem_map.1 hb
      rw [← IMap.get?_congr _ hk, hnm x hx]
      exact IMap.get?_of_mem hn hx

theorem lintSettings_shape {p : Project} : ∀ l ∈ lintSettings L p, l.level = .error ∧ l.category = .settings := by
  intro l hl
  unfold lintSettings at hl
  split at hl
  · simp at hl
  · split at hl
    · simp at hl
    · rw [List.mem_singleton.1 hl]; exact ⟨rfl, rfl⟩

theorem lintErrors_shape {p : Project} : ∀ l ∈ p.lintErrors L, l.level = .error ∧ l.category = .artifact := by
  intro l hl
  rcases fatal_cases hl with ⟨x, _, _, _, _, rfl⟩ | ⟨x, _, _, _, _, rfl⟩ | ⟨x, _, _, _, _, _, rfl⟩ | ⟨x, _, _, _, rfl⟩ <;> exact ⟨rfl, rfl⟩

/-- The warnings about artifacts are exactly one per reference in a text whose artifact or subname does not exist; they name the
reference and the artifact with that text. -/
theorem C40_warned (inp : LoadInput ims defined) (h : Loads hash ims code defined arts) {ls : List Lint}
    (hl : Project.lint L ⟨st, code, arts⟩ = .ok ls) (l : Lint) :
    (l ∈ ls ∧ l.level = .warn ∧ l.category = .artifact) ↔
    ∃ a ∈ artsOf arts, ∃ n : Name, ∃ sub, WritesRef a.text n.raw sub ∧ NoTarget (artsOf arts) n sub ∧
      l = ⟨.warn, some a.file, none, .artifact, a.name.raw ++ c!" has soft reference [[" ++ n.full sub ++ c!"]] which does not exist."⟩ := by
  obtain ⟨refs, hr, rfl⟩ := lint_ok.1 hl
  obtain ⟨_, hnm, _, hnd, hex, hs, _, _⟩ := h.spec inp
  have e1 : (l ∈ Project.lintErrors L ⟨st, code, arts⟩ ++ (refs ++ lintCodeImpls ⟨st, code, arts⟩ ++ lintSettings L ⟨st, code, arts⟩) ∧
      l.level = .warn ∧ l.category = .artifact) ↔ l ∈ refs := by
    rw [List.mem_append, List.mem_append, List.mem_append]
    constructor
    · rintro ⟨hm | (hm | hm) | hm, h1, h2⟩
      · rw [(lintErrors_shape l hm).1] at h1; cases h1
      · exact hm
      · obtain ⟨x, _, hl⟩ := List.mem_flatMap.1 hm
        rw [(codeLintStep_shape l hl).2] at h2; cases h2
      · rw [(lintSettings_shape l hm).1] at h1; cases h1
    · intro hm
      obtain ⟨x, _, m, _, k, e, hlk⟩ := (lintTextRefs_mem hr l).1 hm
      exact ⟨Or.inr (Or.inl (Or.inl hm)), refLintOf_shape e l hlk⟩
  rw [e1, lintTextRefs_mem hr]
  -- one reference
  have step : ∀ (x : Name × Artifact) (m : Match) (n : Str) (s : Option Str), Caps.get m.2.2 1 = some n → Caps.get m.2.2 2 = s → ∀ r : Name,
      Name.fromStr n = .ok r → ((∃ k, refLintOf ⟨st, code, arts⟩ x.1 x.2.file m = .ok k ∧ l ∈ k) ↔
        NoTarget (artsOf arts) r (s.map SubName.mk) ∧ l = refLint x.1 x.2.file r (s.map SubName.mk)) := by
    intro x m n s g1 g2 r hr
    unfold refLintOf
    rw [g1, g2]
    simp only
    rw [hr]
    simp only [Res.ok.injEq]
    cases hg : IMap.get? arts r with
    | none =>
      have := (get?_arts inp h r).1.1 hg
      constructor
      · rintro ⟨k, rfl, hk⟩; exact ⟨Or.inl this, List.mem_singleton.1 hk⟩
      · rintro ⟨_, rfl⟩; exact ⟨_, rfl, by simp⟩
    | some b =>
      obtain ⟨hb, hk⟩ := ((get?_arts inp h r).2 b).1 hg
      have hu : ∀ b' ∈ artsOf arts, key b'.name = key r → b' = b := by
        intro b' hb' hk'
        have := ((get?_arts inp h r).2 b').2 ⟨hb', hk'⟩
        rw [hg] at this; exact (Option.some.inj this).symm
      obtain ⟨im, hi⟩ := hs _ hb
      cases s with
      | none =>
        constructor
        · rintro ⟨k, rfl, hk⟩; simp at hk
        · rintro ⟨hno | ⟨b', _, _, s, hs, _⟩, _⟩
          · exact absurd hk (hno b hb)
          · simp at hs
      | some s =>
        have hc := subs_contains hi.subs ⟨s⟩
        rw [← hi.text] at hc
        cases hcc : ISet.contains b.subnames ⟨s⟩ with
        | true =>
          constructor
          · rintro ⟨k, rfl, hk⟩; simp only [Option.map_some, hcc] at hk; simp at hk
          · rintro ⟨hno | ⟨b', hb', hk', s', hs, hd⟩, _⟩
            · exact absurd hk (hno b hb)
            · simp only [Option.map_some, Option.some.injEq] at hs
              subst hs
              rw [hu b' hb' hk'] at hd
              exact absurd (hc.1 hcc) hd
        | false =>
          have hnd : ¬ DefinesSub b.text ⟨s⟩ := by rw [← hc, hcc]; simp
          constructor
          · rintro ⟨k, rfl, hk'⟩
            simp only [Option.map_some, hcc] at hk'
            simp only [Bool.false_eq_true, ↓reduceIte, List.mem_singleton] at hk'
            exact ⟨Or.inr ⟨b, hb, hk, ⟨s⟩, rfl, hnd⟩, hk'⟩
          · rintro ⟨_, rfl⟩
            exact ⟨_, rfl, by simp only [Option.map_some, hcc]; simp⟩
  constructor
  · rintro ⟨x, hx, m, hm, k, hk⟩
    obtain ⟨n, s, g1, g2⟩ := findIter_textRef_caps hm
    have hw : WritesRef x.2.text n (s.map SubName.mk) :=
      writesRef_iff.2 ⟨m, hm, g1, by rw [g2, Option.map_map]; cases s <;> rfl⟩
    cases hn : Name.fromStr n with
    | err e => exact absurd hn (hw.1 e)
    | panic =>
      have := hk.1
      unfold refLintOf at this
      rw [g1] at this
      simp only at this
      rw [hn] at this
      cases this
    | ok r =>
      obtain ⟨h1, h2⟩ := (step x m n s g1 g2 r hn).1 ⟨k, hk⟩
      have hraw : r.raw = n := Name.fromStr_raw (Name.fromStr_ok hn)
      obtain ⟨ha, hname⟩ := arts_mem inp h hx
      refine ⟨x.2, ha, r, _, by rw [hraw]; exact hw, h1, ?_⟩
      rw [h2, hname]; rfl
  · rintro ⟨a, ha, n, sub, hw, hno, rfl⟩
    obtain ⟨x, hx, rfl⟩ := List.mem_map.1 ha
    obtain ⟨m, hm, g1, g2⟩ := writesRef_iff.1 hw
    have hsub : (sub.map SubName.raw).map SubName.mk = sub := by cases sub <;> rfl
    refine ⟨x, hx, m, hm, ?_⟩
    rw [step x m n.raw _ g1 g2 n n.fromStr_raw_self, hsub]
    refine ⟨hno, ?_⟩
    rw [(arts_mem inp h hx).2]; rfl

/-! ## C41 -/

theorem mem_codeLintAll {n : Name} {c : ImplCode} {msg : Str} {l : Lint} : l ∈ codeLintAll n c msg ↔
    ∃ sub loc, (match sub with | none => c.primary = some loc | some s => (s, loc) ∈ c.secondary) ∧ l = codeLint n sub loc msg := by
  unfold codeLintAll
  rw [List.mem_append, List.mem_map]
  constructor
  · rintro (h | ⟨y, hy, rfl⟩)
    · split at h
      · rename_i loc hp
        exact ⟨none, loc, hp, List.mem_singleton.1 h⟩
      · simp at h
    · exact ⟨some y.1, y.2, hy, rfl⟩
  · rintro ⟨sub | s, loc, h, rfl⟩
    · have h : c.primary = some loc := h
      rw [h]; simp
    · exact Or.inr ⟨_, h, rfl⟩

/-- The warnings about code are exactly one per recorded location that is wrong: the artifact does not exist, is done, or does not have
the subname. The warning is at the location and says which reference and why. -/
theorem C41_warned (inp : LoadInput ims defined) (h : Loads hash ims code defined arts) {ls : List Lint}
    (hl : Project.lint L ⟨st, code, arts⟩ = .ok ls) (l : Lint) :
    (l ∈ ls ∧ l.category = .implCode) ↔
    ∃ n sub loc msg, Recorded code n sub loc ∧ WrongRef ims n sub msg ∧
      l = ⟨.warn, some loc.file, some loc.line, .implCode, c!"Invalid code impl #" ++ n.full sub ++ c!". " ++ msg⟩ := by
  obtain ⟨refs, hr, rfl⟩ := lint_ok.1 hl
  obtain ⟨_, hnm, _, hnd, hex, hs, _, _⟩ := h.spec inp
  have e1 : (l ∈ Project.lintErrors L ⟨st, code, arts⟩ ++ (refs ++ lintCodeImpls ⟨st, code, arts⟩ ++ lintSettings L ⟨st, code, arts⟩) ∧
      l.category = .implCode) ↔ l ∈ lintCodeImpls ⟨st, code, arts⟩ := by
    rw [List.mem_append, List.mem_append, List.mem_append]
    constructor
    · rintro ⟨hm | (hm | hm) | hm, h1⟩
      · rw [(lintErrors_shape l hm).2] at h1; cases h1
      · obtain ⟨x, _, m, _, k, e, hlk⟩ := (lintTextRefs_mem hr l).1 hm
        rw [(refLintOf_shape e l hlk).2] at h1; cases h1
      · exact hm
      · rw [(lintSettings_shape l hm).2] at h1; cases h1
    · intro hm
      obtain ⟨x, _, hl⟩ := List.mem_flatMap.1 hm
      exact ⟨Or.inr (Or.inl (Or.inr hm)), (codeLintStep_shape l hl).2⟩
  rw [e1]
  have step : ∀ x ∈ code, l ∈ codeLintStep ⟨st, code, arts⟩ x ↔ ∃ sub loc msg,
      (match sub with | none => x.2.primary = some loc | some s => (s, loc) ∈ x.2.secondary) ∧ WrongRef ims x.1 sub msg ∧
      l = codeLint x.1 sub loc msg := by
    intro x hx
    unfold codeLintStep
    cases hg : IMap.get? arts x.1 with
    | none =>
      simp only
      have hno : ∀ y ∈ ims, key y.1 ≠ key x.1 := by
        intro y hy hk
        obtain ⟨a, ha, hka⟩ := (hex x.1).2 (IMap.contains_iff.2 ⟨y, hy, hk⟩)
        exact (get?_arts inp h x.1).1.1 hg a ha hka
      rw [mem_codeLintAll]
      constructor
      · rintro ⟨sub, loc, h1, rfl⟩
        exact ⟨sub, loc, _, h1, .missing sub hno, rfl⟩
      · rintro ⟨sub, loc, msg, h1, h2, rfl⟩
        refine ⟨sub, loc, h1, ?_⟩
        cases h2 with
        | missing _ _ => rfl
        | done _ y hy hk _ => exact absurd hk (hno y hy)
        | noSub s y hy hk _ _ => exact absurd hk (hno y hy)
    | some a =>
      simp only
      obtain ⟨ha, hk⟩ := ((get?_arts inp h x.1).2 a).1 hg
      obtain ⟨im, hi⟩ := hs _ ha
      obtain ⟨n', hk', hmem⟩ := IMap.mem_of_get? hi.mem
      have hu : ∀ y ∈ ims, key y.1 = key x.1 → y.2 = im := by
        intro y hy hky
        have h1 := IMap.get?_of_mem inp.nodup hy
        rw [IMap.get?_congr _ (hky.trans hk.symm), hi.mem] at h1
        exact (Option.some.inj h1).symm
      have himpl := hi.impl
      unfold implOf at himpl
      cases hd : im.done with
      | some d =>
        rw [hd] at himpl
        simp only at himpl
        rw [himpl]
        simp only
        rw [mem_codeLintAll]
        constructor
        · rintro ⟨sub, loc, h1, rfl⟩
          exact ⟨sub, loc, _, h1, .done sub _ hmem (hk'.trans hk) (by rw [hd]; simp), rfl⟩
        · rintro ⟨sub, loc, msg, h1, h2, rfl⟩
          refine ⟨sub, loc, h1, ?_⟩
          cases h2 with
          | missing _ hno => exact absurd (hk'.trans hk) (hno _ hmem)
          | done _ y hy hk _ => rfl
          | noSub s y hy hk hd' _ => rw [hu y hy hk, hd] at hd'; cases hd'
      | none =>
        rw [hd] at himpl
        simp only at himpl
        have hcode : ∃ c, IMap.get? code a.name = some c := by
          rw [IMap.get?_congr _ hk]
          cases hc : IMap.get? code x.1 with
          | some c => exact ⟨c, rfl⟩
          | none => exact absurd rfl (IMap.get?_eq_none.1 hc x hx)
        obtain ⟨c, hc⟩ := hcode
        rw [hc] at himpl
        simp only at himpl
        rw [himpl]
        simp only
        rw [List.mem_filterMap]
        constructor
        · rintro ⟨y, hy, hh⟩
          split at hh
          · cases hh
          · rename_i hcc
            cases hh
            refine ⟨some y.1, y.2, _, hy, .noSub y.1 _ hmem (hk'.trans hk) hd ?_, rfl⟩
            rw [← subs_contains hi.subs]
            exact hcc
        · rintro ⟨sub, loc, msg, h1, h2, rfl⟩
          cases h2 with
          | missing _ hno => exact absurd (hk'.trans hk) (hno _ hmem)
          | done _ y hy hk hd' => rw [hu y hy hk, hd] at hd'; exact absurd rfl hd'
          | noSub s y hy hk hd' hns =>
            refine ⟨(s, loc), h1, ?_⟩
            rw [hu y hy hk, ← subs_contains hi.subs] at hns
            rw [if_neg hns]
  unfold lintCodeImpls
  rw [List.mem_flatMap]
  constructor
  · rintro ⟨x, hx, hl⟩
    obtain ⟨sub, loc, msg, h1, h2, rfl⟩ := (step x hx).1 hl
    exact ⟨x.1, sub, loc, msg, ⟨x.2, hx, h1⟩, h2, rfl⟩
  · rintro ⟨n, sub, loc, msg, ⟨c, hc, h1⟩, h2, rfl⟩
    exact ⟨(n, c), hc, (step (n, c) hc).2 ⟨sub, loc, msg, h1, h2, rfl⟩⟩

theorem full_noBlank {n : Name} {sub : Option SubName} (hs : ∀ s, sub = some s → SubLike s.raw) : ' ' ∉ n.full sub := by
  cases sub with
  | none => exact name_noBlank n
  | some s =>
    intro hm
    rcases List.mem_append.1 hm with hm | hm
    · exact name_noBlank n hm
    · obtain ⟨w, e, _, hw⟩ := sub_shape (subLike_iff.1 (hs s rfl))
      rw [e] at hm
      rcases List.mem_cons.1 hm with hm | hm
      · cases hm
      · rcases hw _ hm with h | h <;> revert h <;> decide

/-- A recorded location gets a warning exactly when it is wrong; so a location that counts is never warned about. -/
theorem C41_each (inp : LoadInput ims defined) (h : Loads hash ims code defined arts) {ls : List Lint}
    (hl : Project.lint L ⟨st, code, arts⟩ = .ok ls) (hsub : ∀ n s loc, Recorded code n (some s) loc → SubLike s.raw)
    {n : Name} {sub : Option SubName} {loc : CodeLoc} (hrec : Recorded code n sub loc) :
    (∃ l ∈ ls, l.category = .implCode ∧ l.path = some loc.file ∧ l.line = some loc.line ∧
      ∃ msg, l.msg = c!"Invalid code impl #" ++ n.full sub ++ c!". " ++ msg) ↔ ∃ msg, WrongRef ims n sub msg := by
  constructor
  · rintro ⟨l, hm, hc, _, _, msg, hmsg⟩
    obtain ⟨n', sub', loc', msg', h1, h2, rfl⟩ := (C41_warned inp h hl l).1 ⟨hm, hc⟩
    have ok : ∀ {n sub loc}, Recorded code n sub loc → ∀ s, sub = some s → SubLike s.raw := by
      rintro n sub loc hr s rfl
      exact hsub n s loc hr
    simp only [List.append_assoc] at hmsg
    have hmsg := List.append_cancel_left hmsg
    have e1 : (n'.full sub' ++ ['.']) ++ ' ' :: msg' = (n.full sub ++ ['.']) ++ ' ' :: msg := by simpa using hmsg
    have nb : ∀ {n : Name} {sub : Option SubName} {loc}, Recorded code n sub loc → ' ' ∉ n.full sub ++ ['.'] := by
      intro n sub loc hr hm
      rcases List.mem_append.1 hm with hm | hm
      · exact full_noBlank (ok hr) hm
      · simp at hm
    obtain ⟨e2, _⟩ := until_unique (nb h1) (nb hrec) e1
    obtain ⟨rfl, rfl⟩ := C03_full_injective n' n sub' sub (ok h1) (ok hrec) (List.append_cancel_right e2)
    exact ⟨msg', h2⟩
  · rintro ⟨msg, hw⟩
    obtain ⟨h1, h2⟩ := (C41_warned inp h hl _).2 ⟨n, sub, loc, msg, hrec, hw, rfl⟩
    exact ⟨_, h1, h2, rfl, rfl, msg, rfl⟩

/-! ## C19 -/

/-- No lint is about cycles: if a project has none of these seven other problems then there are no lints at all, whether or not the links
have a cycle. -/
theorem C19_silent (inp : LoadInput ims defined) (h : Loads hash ims code defined arts) {ls : List Lint}
    (hl : Project.lint L ⟨st, code, arts⟩ = .ok ls)
    (dangling : ∀ x ∈ ims, ∀ q ∈ x.2.partof, ∃ y ∈ ims, key y.1 = key q)
    (types : ∀ x ∈ ims, ∀ q ∈ x.2.partof, tyRank x.1.ty ≤ tyRank q.ty)
    (text : ∀ a ∈ artsOf arts, ∀ line ∈ lines a.text, ¬ NameLine L.fold st.pre line ∧ ¬ EndLine line)
    (done : ∀ x ∈ ims, x.2.done ≠ none → ∀ sub, ¬ DefinesSub x.2.text sub)
    (soft : ∀ a ∈ artsOf arts, ∀ (n : Name) (sub), WritesRef a.text n.raw sub → ¬ NoTarget (artsOf arts) n sub)
    (refs : ∀ n sub loc msg, Recorded code n sub loc → ¬ WrongRef ims n sub msg)
    (url : ∀ u, st.codeUrl = some u → L.urlErr u = none) : ls = [] := by
  rw [List.eq_nil_iff_forall_not_mem]
  intro l hm
  have hrep : Reported L ⟨st, code, arts⟩ ls := Or.inl hl
  have hmem := hm
  obtain ⟨rs, hr, rfl⟩ := lint_ok.1 hl
  rw [List.mem_append, List.mem_append, List.mem_append] at hm
  obtain ⟨_, hnm, _, hnd, hex, hs, _, _⟩ := h.spec inp
  rcases hm with hm | (hm | hm) | hm
  · obtain ⟨hl1, hl2⟩ := lintErrors_shape l hm
    rcases fatal_cases hm with ⟨x, hx, q, hq, hc, rfl⟩ | ⟨x, hx, q, hq, hc, rfl⟩ | ⟨x, hx, line, h1, h2, _, rfl⟩ | ⟨x, hx, h1, h2, rfl⟩
    · obtain ⟨y, hy, q, hq, hno⟩ := (C13_reported inp h hrep).1 ⟨_, hmem, hl1, hl2, x.1, q, by simp [artLint]⟩
      obtain ⟨z, hz, hk⟩ := dangling y hy q hq
      exact hno z hz hk
    · obtain ⟨y, hy, q, hq, hno⟩ := (C14_reported inp h hrep).1 ⟨_, hmem, hl1, hl2, x.1, q, by simp [artLint]⟩
      have := types y hy q hq
      revert hno this
      cases y.1.ty <;> cases q.ty <;> decide
    · obtain ⟨t1, t2⟩ := text x.2 (arts_mem inp h hx).1 line h1
      exact h2.elim t1 t2
    · obtain ⟨a, ha, hn, _, im, him, hd, sub, hsub⟩ := (C44_reported inp h hrep x.2.file x.1).1 ⟨_, hmem, hl1, hl2, rfl, by simp [artLint]⟩
      obtain ⟨n', hk', hmem'⟩ := IMap.mem_of_get? him
      exact done _ hmem' hd sub hsub
  · obtain ⟨x, _, m, _, k, e, hlk⟩ := (lintTextRefs_mem hr l).1 hm
    obtain ⟨a, ha, n, sub, hw, hno, _⟩ := (C40_warned inp h hl l).1 ⟨hmem, refLintOf_shape e l hlk⟩
    exact soft a ha n sub hw hno
  · obtain ⟨x, _, hlx⟩ := List.mem_flatMap.1 hm
    obtain ⟨n, sub, loc, msg, h1, h2, _⟩ := (C41_warned inp h hl l).1 ⟨hmem, (codeLintStep_shape l hlx).2⟩
    exact refs n sub loc msg h1 h2
  · unfold lintSettings at hm
    cases hu : st.codeUrl with
    | none => simp only [hu] at hm; simp at hm
    | some u => simp only [hu, url u hu] at hm; simp at hm

end

/-! ## examples -/

/-- Settings for the examples. -/
def exSettings : Settings := ⟨c!"/", c!"/.art/settings.toml", [], [], [], [], none, .default, .hashes⟩

/-- A project with a problem of each kind: a link to nowhere, a link to a lower type, a done artifact with a subname, a text with a line that
starts an artifact, soft references to a missing artifact and a missing subname. -/
def exBad : IMap Name ArtifactIm :=
  [exArt "REQ-a" ["SPC-b", "REQ-nowhere"] none "[[SPC-b.one]] [[SPC-b.two]] [[SPC-b]] [[REQ-gone]]", exArt "SPC-b" [] (some "yes") "[[.one]]",
   exArt "SPC-c" [] none "x\n# SPC-d\ny [[.three]]"]

/-- References to a missing artifact, a done artifact, a missing subname, and two right ones. -/
def exBadCode : IMap Name ImplCode :=
  [(nm "SPC-b", ⟨some ⟨c!"/x.rs", 1⟩, []⟩), (nm "SPC-c", ⟨some ⟨c!"/x.rs", 2⟩, [(⟨c!".three"⟩, ⟨c!"/x.rs", 3⟩), (⟨c!".four"⟩, ⟨c!"/x.rs", 4⟩)]⟩),
   (nm "SPC-gone", ⟨none, [(⟨c!".five"⟩, ⟨c!"/x.rs", 5⟩)]⟩)]

/-- Libraries for the examples; only the folding of characters and the check of the URL matter here. -/
def exLibs : Libs := ⟨foldC, fun _ => none, fun _ => [], fun _ => none, fun _ => [], fun _ => none, fun _ => [], fun _ => [], fun _ => none⟩

/-- What the lints of an example say. -/
def exSays (code : IMap Name ImplCode) (arts : IMap Name Artifact) : Option (List String) :=
  (Project.lint exLibs ⟨exSettings, code, arts⟩).toOption.map (fun ls => ls.map (fun l => String.ofList l.msg))

/-- The lints of `exBad`. -/
def exBadSays : List String :=
      ["REQ-a defines partof=REQ-nowhere which does not exist",
       "REQ-a cannot have `partof` SPC-b: invalid types.",
       "SPC-c text is invalid: Cannot have a line of the form \"# ART-name\" as that specifies a new artifact in the markdown format.",
       "SPC-b: subnames are defined when the `done` field is set.",
       "REQ-a has soft reference [[SPC-b.two]] which does not exist.",
       "REQ-a has soft reference [[REQ-gone]] which does not exist.",
       "Invalid code impl #SPC-b. Artifact's done field is set",
       "Invalid code impl #SPC-c.four. Subname [[.four]] does not exist in artifact's text",
       "Invalid code impl #SPC-gone.five. Artifact SPC-gone does not exist"]

/-- All lints of the example project: the theorems above talk about a project that is loaded and for which each kind of lint is there. -/
theorem exBad_lints : LoadInput exBad (exDefined exBad) ∧ ∃ arts, Loads exHash exBad exBadCode (exDefined exBad) arts ∧
    exSays exBadCode arts = some exBadSays := by
  have hn : IMap.Nodup exBad := by unfold IMap.Nodup; decide +kernel
  refine ⟨exInput _ hn, ?_⟩
  obtain ⟨arts, h1, h2⟩ := exHas (i := exBad) (c := exBadCode) (fun arts => exSays exBadCode arts = some exBadSays) (by decide +kernel)
  exact ⟨arts, exLoads hn h1, h2⟩

/-- Two specifications that are part of each other. -/
def exCycle : IMap Name ArtifactIm := [exArt "SPC-a" ["SPC-b"] none "a", exArt "SPC-b" ["SPC-a"] (some "yes") "b"]

/-- A project with a cycle and no lints at all: everything is shown as 0% and nothing says why. -/
theorem C19_no_cycle_lint : LoadInput exCycle (exDefined exCycle) ∧ ∃ arts, Loads exHash exCycle [] (exDefined exCycle) arts ∧
    Cyclic (artsOf arts) ∧ Project.lint exLibs ⟨exSettings, [], arts⟩ = .ok [] ∧ ∀ a ∈ artsOf arts, a.completed = ⟨0, 0⟩ := by
  have hn : IMap.Nodup exCycle := by unfold IMap.Nodup; decide +kernel
  have inp := exInput _ hn
  refine ⟨inp, ?_⟩
  obtain ⟨arts, h1, h2, h3⟩ := exHas (i := exCycle) (c := [])
    (fun arts => Project.lint exLibs ⟨exSettings, [], arts⟩ = .ok [] ∧
      ∃ a ∈ artsOf arts, ∃ b ∈ artsOf arts, PartOf a b.name ∧ PartOf b a.name) (by decide +kernel)
  obtain ⟨a, ha, b, hb, p1, p2⟩ := h3
  have hl := exLoads hn h1
  have hc : Cyclic (artsOf arts) := ⟨a, .tail (.single ⟨ha, hb, p1⟩) ⟨hb, ha, p2⟩⟩
  exact ⟨arts, hl, hc, h2, (hl.spec inp).2.2.2.2.2.2.1 hc⟩

/-- A reference with a long s in a text crashes the program. -/
example : ∃ arts, Loads exHash [exArt "REQ-a" [] none "see [[ſPC-a]]"] [] (exDefined [exArt "REQ-a" [] none "see [[ſPC-a]]"]) arts ∧
    Project.lint exLibs ⟨exSettings, [], arts⟩ = .panic := by
  have hn : IMap.Nodup [exArt "REQ-a" [] none "see [[ſPC-a]]"] := by unfold IMap.Nodup; decide +kernel
  obtain ⟨arts, h1, h2⟩ := exHas (i := [exArt "REQ-a" [] none "see [[ſPC-a]]"]) (c := [])
    (fun arts => Project.lint exLibs ⟨exSettings, [], arts⟩ = .panic) (by decide +kernel)
  exact ⟨arts, exLoads hn h1, h2⟩

/-- A text with a fence line passes all lints, but is not kept in a markdown file (`C21_fence_loses_text`). -/
theorem C42_fence_false : ∃ arts, Loads exHash [exArt "SPC-a" [] none "a\n```art\nb\n"] [] (exDefined [exArt "SPC-a" [] none "a\n```art\nb\n"]) arts ∧
    Project.lint exLibs ⟨exSettings, [], arts⟩ = .ok [] ∧
    ∃ s, toMarkdown exLibs exSettings.pre .hashes [(intoRaw (exArt "SPC-a" [] none "a\n```art\nb\n").2).2] = .ok s ∧
      loadFile exLibs exSettings.pre c!"/a.md" (.text s) = .ok ([(exArt "SPC-a" [] none "a\n```art\n").2], []) := by
  have hn : IMap.Nodup [exArt "SPC-a" [] none "a\n```art\nb\n"] := by unfold IMap.Nodup; decide +kernel
  obtain ⟨arts, h1, h2⟩ := exHas (i := [exArt "SPC-a" [] none "a\n```art\nb\n"]) (c := [])
    (fun arts => Project.lint exLibs ⟨exSettings, [], arts⟩ = .ok []) (by decide +kernel)
  exact ⟨arts, exLoads hn h1, h2, c!"# SPC-a\na\n```art\nb", by decide +kernel, by decide +kernel⟩

end Art
