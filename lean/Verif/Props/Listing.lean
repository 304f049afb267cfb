import Verif.Lemmas.Listing
import Verif.Props.Export

/-!
# Property C61: what `art ls` prints
-/

namespace Art
open Spec

section
variable {L : Libs} {readToml : Str → Option SettingsRaw} {hash : ArtifactIm → HashIm} {ncpu : Nat} {fs : FS} {base : FilePath}
  {c : Categorized} {p : Project}

/-! ## C61 -/

/-- What `art ls` prints without `--long`: a table with a line of titles and a line for every artifact that is selected (C34), the cells of a line standing
under the titles of what they show. -/
theorem C61_table (h : ReadsProject L readToml hash ncpu fs base (.ok (c, p))) {compile : Str → Option (Str → Bool)} {cmd : Ls} {as : List Artifact}
    (hs : lsShown compile cmd (.ok (c, p)) = .ok as) (hl : cmd.long = false) (ho : cmd.outputTy ≠ c!"json") :
    ∃ rows, lsPrint compile cmd false (.ok (c, p)) = .ok (.table rows) ∧ TableOf (artsOf p.artifacts) (Flags.fromCmd cmd) as rows := by
  obtain ⟨rows, e, hr⟩ := forall₂_choose (f := Artifact.lineStyle p.artifacts (Flags.fromCmd cmd))
    (fun a ha => cells_spec h (Flags.fromCmd cmd) (lsShown_mem hs a ha))
  refine ⟨tableHeader (Flags.fromCmd cmd) :: rows, ?_, headerColumns (Flags.fromCmd cmd), _, _, columns_fields _, rfl, header_spec _, hr⟩
  unfold lsPrint
  simp only [hs, Res.bind_ok, if_neg ho, hl, Bool.false_eq_true, if_false, displayTable, e, orPanic]

/-- What `art ls --long` prints: for every artifact that is selected the lines of the fields that are wanted. -/
theorem C61_long (h : ReadsProject L readToml hash ncpu fs base (.ok (c, p))) {compile : Str → Option (Str → Bool)} {cmd : Ls} {as : List Artifact}
    (hs : lsShown compile cmd (.ok (c, p)) = .ok as) (hl : cmd.long = true) (ho : cmd.outputTy ≠ c!"json") :
    ∃ pieces, lsPrint compile cmd false (.ok (c, p)) = .ok (.pieces pieces) ∧ LongOf (artsOf p.artifacts) (Flags.fromCmd cmd) as pieces := by
  obtain ⟨ls, e, hr⟩ := forall₂_choose (f := Artifact.fullStyle p.artifacts (Flags.fromCmd cmd))
    (fun a ha => long_spec h (Flags.fromCmd cmd) (lsShown_mem hs a ha))
  refine ⟨ls.flatten, ?_, ?_⟩
  · unfold lsPrint
    simp only [hs, Res.bind_ok, if_neg ho, hl, if_true, displayLong, e, orPanic, Bool.false_eq_true, if_false]
  · clear e hs
    induction hr with
    | nil => exact ⟨[], .nil, rfl⟩
    | cons h1 _ ih =>
      obtain ⟨lines, h2, rfl⟩ := h1
      obtain ⟨rest, h3, h4⟩ := ih
      exact ⟨lines :: rest, .cons h2 h3, by simp [h4]⟩

/-- `art ls` prints exactly when the selection is accepted, and never panics, whatever the options for the display. -/
theorem C61_total (h : ReadsProject L readToml hash ncpu fs base (.ok (c, p))) (compile : Str → Option (Str → Bool)) (cmd : Ls) (plain : Bool) :
    lsPrint compile cmd plain (.ok (c, p)) ≠ .panic ∧
    ((∃ out, lsPrint compile cmd plain (.ok (c, p)) = .ok out) ↔ ∃ as, lsShown compile cmd (.ok (c, p)) = .ok as) := by
  rcases hs : lsShown compile cmd (.ok (c, p)) with as | e | _
  · have : ∃ out, lsPrint compile cmd plain (.ok (c, p)) = .ok out := by
      unfold lsPrint
      simp only [hs, Res.bind_ok]
      obtain ⟨ls, e1, -⟩ := forall₂_choose (f := Artifact.fullStyle p.artifacts (Flags.fromCmd cmd))
        (fun a ha => long_spec h (Flags.fromCmd cmd) (lsShown_mem hs a ha))
      obtain ⟨rows, e2, -⟩ := forall₂_choose (f := Artifact.lineStyle p.artifacts (Flags.fromCmd cmd))
        (fun a ha => cells_spec h (Flags.fromCmd cmd) (lsShown_mem hs a ha))
      split
      · exact ⟨_, rfl⟩
      · split
        · exact ⟨.pieces (if plain then ls.flatten.map Styled.setPlain else ls.flatten), by unfold displayLong; rw [e1]; rfl⟩
        · exact ⟨.table (if plain then (tableHeader (Flags.fromCmd cmd) :: rows).map (fun row => row.map (fun c => c.map Styled.setPlain)) else
            tableHeader (Flags.fromCmd cmd) :: rows), by unfold displayTable; rw [e2]; rfl⟩
    exact ⟨by obtain ⟨o, ho⟩ := this; rw [ho]; nofun, ⟨fun _ => ⟨_, rfl⟩, fun _ => this⟩⟩
  · unfold lsPrint
    rw [hs]
    exact ⟨nofun, ⟨fun ⟨_, h⟩ => (nomatch h), fun ⟨_, h⟩ => (nomatch h)⟩⟩
  · exact absurd hs (C34_refused h).1

/-- `--plain` changes the styles and nothing else: the same pieces of text in the same places, all without colour, bold or italics. -/
theorem C61_plain (compile : Str → Option (Str → Bool)) (cmd : Ls) (out : Res Categorized (Categorized × Project)) :
    (∀ rows, lsPrint compile cmd false out = .ok (.table rows) → ∃ rows', lsPrint compile cmd true out = .ok (.table rows') ∧
      List.Forall₂ (List.Forall₂ (List.Forall₂ (fun s t => Bare t s.text))) rows rows') ∧
    (∀ l, lsPrint compile cmd false out = .ok (.pieces l) → ∃ l', lsPrint compile cmd true out = .ok (.pieces l') ∧
      List.Forall₂ (fun s t => Bare t s.text) l l') ∧
    (∀ as, lsPrint compile cmd false out = .ok (.json as) ↔ lsPrint compile cmd true out = .ok (.json as)) := by
  have all : ∀ l : List Styled, List.Forall₂ (fun s t => Bare t s.text) l (l.map Styled.setPlain) := fun l => by
    rw [List.forall₂_map_right_iff, List.forall₂_same]; exact fun _ _ => rfl
  unfold lsPrint
  rcases lsShown compile cmd out with as | e | _
  · simp only [Res.bind_ok]
    rcases out with ⟨c, p⟩ | e | _
    · dsimp only
      split
      · exact ⟨nofun, nofun, fun _ => Iff.rfl⟩
      · split
        · unfold displayLong
          rcases Res.mapM' (Artifact.fullStyle p.artifacts (Flags.fromCmd cmd)) as with els | e | _
          · refine ⟨nofun, fun l hl => ?_, fun _ => ⟨nofun, nofun⟩⟩
            cases hl
            exact ⟨_, rfl, all _⟩
          · exact ⟨nofun, nofun, fun _ => ⟨nofun, nofun⟩⟩
          · exact ⟨nofun, nofun, fun _ => ⟨nofun, nofun⟩⟩
        · unfold displayTable
          rcases Res.mapM' (Artifact.lineStyle p.artifacts (Flags.fromCmd cmd)) as with els | e | _
          · refine ⟨fun l hl => ?_, nofun, fun _ => ⟨nofun, nofun⟩⟩
            cases hl
            refine ⟨_, rfl, ?_⟩
            simp only [if_true, Bool.false_eq_true, if_false]
            rw [List.forall₂_map_right_iff, List.forall₂_same]
            intro row _
            rw [List.forall₂_map_right_iff, List.forall₂_same]
            exact fun cell _ => all cell
          · exact ⟨nofun, nofun, fun _ => ⟨nofun, nofun⟩⟩
          · exact ⟨nofun, nofun, fun _ => ⟨nofun, nofun⟩⟩
    · exact ⟨nofun, nofun, fun _ => ⟨nofun, nofun⟩⟩
    · exact ⟨nofun, nofun, fun _ => ⟨nofun, nofun⟩⟩
  · exact ⟨nofun, nofun, fun _ => ⟨nofun, nofun⟩⟩
  · exact ⟨nofun, nofun, fun _ => ⟨nofun, nofun⟩⟩

/-- A row stays on its line: no cell has a line end, unless the path of the file has one or the description of the implementation. -/
theorem C61_one_line (h : ReadsProject L readToml hash ncpu fs base (.ok (c, p))) {compile : Str → Option (Str → Bool)} {cmd : Ls} {as : List Artifact}
    {rows : List (List (List Styled))} (hs : lsShown compile cmd (.ok (c, p)) = .ok as) (hp : lsPrint compile cmd false (.ok (c, p)) = .ok (.table rows))
    (hf : ∀ a ∈ as, '\n' ∉ a.file ∧ ∀ t, ImplShown a.impl t → '\n' ∉ t) : ∀ row ∈ rows, ∀ cell ∈ row, ∀ s ∈ cell, '\n' ∉ s.text := by
  have ho : cmd.outputTy ≠ c!"json" := by
    intro e; unfold lsPrint at hp; rw [hs] at hp; simp [e] at hp
  have hl : cmd.long = false := by
    cases hl : cmd.long with
    | false => rfl
    | true =>
      obtain ⟨l, e, -⟩ := C61_long h hs hl ho
      rw [e] at hp; cases hp
  obtain ⟨rows', e, cols, header, body, hc, rfl, hh, hb⟩ := C61_table h hs hl ho
  rw [e] at hp
  cases hp
  intro row hrow cell hcell s hsm
  rcases List.mem_cons.1 hrow with rfl | hrow
  · obtain ⟨co, _, rfl⟩ := forall₂_mem_right hh hcell
    simp only [List.mem_singleton] at hsm
    subst hsm
    cases co <;> decide
  · obtain ⟨a, ha, hr⟩ := forall₂_mem_right hb hrow
    obtain ⟨co, hco, hcs⟩ := forall₂_mem_right hr hcell
    have names : ∀ {b : Styled} {r : List Styled} {l : List Name}, cell = b :: r → Bare b c!" | " → Joined (NameShown (artsOf p.artifacts)) l r →
        '\n' ∉ s.text := by
      rintro b r l rfl rfl hj
      rcases List.mem_cons.1 hsm with rfl | hsm
      · decide
      · exact joined_texts (Q := fun t => '\n' ∉ t) hj (by decide) (fun n _ t ht => nameShown_noNl ht) s hsm
    have two : ∀ {b t : Styled}, cell = [b, t] → Bare b c!" | " → '\n' ∉ t.text → '\n' ∉ s.text := by
      rintro b t rfl rfl ht
      simp only [List.mem_cons, List.not_mem_nil, or_false] at hsm
      rcases hsm with rfl | rfl
      · decide
      · exact ht
    cases co with
    | spc => obtain ⟨t, k, rfl, hpc, _⟩ := hcs; simp only [List.mem_singleton] at hsm; subst hsm; exact percent_noNl hpc
    | tst => obtain ⟨t, k, rfl, hpc, _⟩ := hcs; simp only [List.mem_singleton] at hsm; subst hsm; exact percent_noNl hpc
    | name => obtain ⟨b, t, k, e1, e2, e3, _⟩ := hcs; exact two e1 e2 (by rw [e3]; exact name_noNl)
    | subnames =>
      obtain ⟨b, r, rfl, rfl, hj⟩ := hcs
      rcases List.mem_cons.1 hsm with rfl | hsm
      · decide
      · refine joined_texts (Q := fun t => '\n' ∉ t) hj (by decide) (fun n hn t ht => ?_) s hsm
        rw [ht.1]
        exact sub_outside (subLike_iff.1 (reads_subnames h (lsShown_mem hs a ha) hn)) (by decide)
    | parts => obtain ⟨b, r, e1, e2, hj⟩ := hcs; exact names e1 e2 hj
    | partof => obtain ⟨b, r, e1, e2, hj⟩ := hcs; exact names e1 e2 hj
    | file => obtain ⟨b, t, e1, e2, e3⟩ := hcs; exact two e1 e2 (by rw [e3]; exact (hf a ha).1)
    | impl => obtain ⟨b, t, u, e1, e2, e3, e4⟩ := hcs; exact two e1 e2 (by rw [e3]; exact (hf a ha).2 u e4)
    | text => obtain ⟨b, t, u, e1, e2, e3, e4⟩ := hcs; exact two e1 e2 (by rw [e3]; exact escaped_noNl e4)

/-- The text of an artifact takes at most 60 characters in a row, and is shown in full if it is short and has no backslash in it: different short texts
look different. -/
theorem C61_text {t u s s' : Str} (h : Escaped (t.take 30) s) (h' : Escaped (u.take 30) s') :
    s.length ≤ 60 ∧ (t.length ≤ 30 → u.length ≤ 30 → '\\' ∉ t → '\\' ∉ u → s = s' → t = u) := by
  refine ⟨(escaped_length h).trans (by simp; omega), fun ht hu bt bu e => ?_⟩
  rw [List.take_of_length_le ht] at h
  rw [List.take_of_length_le hu] at h'
  clear ht hu
  subst e
  induction h generalizing u with
  | nil => cases h'; rfl
  | lf _ ih =>
    cases h' with
    | lf h' => rw [ih (fun e => bt (by simp [e])) (fun e => bu (by simp [e])) h']
    | other _ h' => exact absurd (by simp) bu
  | other hc _ ih =>
    cases h' with
    | lf h' => exact absurd (by simp) bt
    | other _ h' => rw [ih (fun e => bt (by simp [e])) (fun e => bu (by simp [e])) h']

example : Escaped (c!"a\nb".take 30) c!"a\\nb" ∧ Escaped (c!"a\\nb".take 30) c!"a\\nb" := by
  refine ⟨.other (by decide) (.lf (.other (by decide) .nil)), ?_⟩
  exact .other (by decide) (.other (by decide) (.other (by decide) (.other (by decide) .nil)))

/-- In the long form the subnames are never shown: choosing or not choosing them, or the name, changes nothing. -/
theorem C61_long_ignores (arts : IMap Name Artifact) (a : Artifact) (f : Flags) (n s : Bool) :
    a.fullStyle arts { f with name := n, subnames := s } = a.fullStyle arts f := rfl

/-- All subnames of an artifact that is done by declaration are red, also when there is code for them: only an artifact that is not declared done
shows which of its subnames are implemented. -/
theorem C61_done_red {a : Artifact} {d : Str} (h : a.impl = .done d) {l : List SubName} {r : List Styled} (hj : Joined (SubnameShown a) l r) :
    ∀ s ∈ r, s.color = some .red ∨ s = ⟨c!", ", none, false, false⟩ := by
  have hn : ∀ x, ¬ InCode a x := by rintro x ⟨co, e, _⟩; rw [h] at e; cases e
  induction hj with
  | nil => nofun
  | one hx => intro s hs; simp only [List.mem_singleton] at hs; subst hs; exact Or.inl (hx.2.2 (hn _)).1
  | more hx _ ih =>
    intro s hs
    simp only [List.mem_cons] at hs
    rcases hs with rfl | rfl | hs
    · exact Or.inl (hx.2.2 (hn _)).1
    · exact Or.inr rfl
    · exact ih s hs

/-- A declaration with a line end in it breaks the row of its artifact: the cell has the line end. -/
theorem C61_torn {a : Artifact} {d : Str} (h : a.impl = .done d) (hd : '\n' ∈ d) {arts : List Artifact} {cell : List Styled}
    (hc : CellShown arts a .impl cell) : ∃ s ∈ cell, '\n' ∈ s.text := by
  obtain ⟨b, s, t, rfl, _, rfl, ht⟩ := hc
  rw [h] at ht
  exact ⟨⟨t, none, false, false⟩, by simp, by rw [show t = d from ht]; exact hd⟩

/-- What is printed about the implementation can be misunderstood: a declaration can read like no implementation at all. -/
theorem C61_ambiguous (t : Str) : ImplShown .notImpl t ↔ ImplShown (.done c!"not directly implemented") t := Iff.rfl

end

/-! ## an example -/

/-- The commands `art ls --all` and `art ls --all --long`. -/
def exLsAll (long : Bool) : Ls := ⟨none, c!"N", long, c!">0", c!">0", Flags.empty, true, c!"list"⟩

/-- A table for a project with a subname that is implemented and one that is not. -/
theorem exDoc_table : (exDoc none).toOption.map (fun r => match lsPrint exCompile (exLsAll false) false (.ok r) with
    | .ok (.table rows) => rows
    | _ => []) = some [
      [[⟨c!"spc%", none, true, false⟩], [⟨c!"tst%", none, true, false⟩], [⟨c!" | name", none, true, false⟩], [⟨c!" | subnames", none, true, false⟩],
        [⟨c!" | parts", none, true, false⟩], [⟨c!" | partof", none, true, false⟩], [⟨c!" | file", none, true, false⟩], [⟨c!" | impl", none, true, false⟩],
        [⟨c!" | text", none, true, false⟩]],
      [[⟨c!"66.7", some .yellow, false, false⟩], [⟨c!"0.0", some .red, false, false⟩], [plainText c!" | ", ⟨c!"REQ-a", some .yellow, false, false⟩],
        [plainText c!" | "], [plainText c!" | ", ⟨c!"SPC-a", some .yellow, false, false⟩], [plainText c!" | "],
        [plainText c!" | ", plainText c!"/p/design/a.md"], [plainText c!" | ", plainText c!"not directly implemented"],
        [plainText c!" | ", plainText c!"see [[SPC-A.X]] and [[SPC-gone"]],
      [[⟨c!"66.7", some .yellow, false, false⟩], [⟨c!"0.0", some .red, false, false⟩], [plainText c!" | ", ⟨c!"SPC-a", some .yellow, false, false⟩],
        [plainText c!" | ", ⟨c!".x", some .green, false, false⟩, plainText c!", ", ⟨c!".y", some .red, false, false⟩],
        [plainText c!" | "], [plainText c!" | ", ⟨c!"REQ-a", some .yellow, false, false⟩],
        [plainText c!" | ", plainText c!"/p/design/a.md"], [plainText c!" | ", plainText c!"/p/src/x.rs[0]Secondary{\".x\": /p/src/x.rs[1]}"],
        [plainText c!" | ", plainText c!"how [[.x]] [[.y]]\\n```dot\\n[[REQ"]]] := by decide +kernel

/-- The long form of the same project, as it reads. -/
theorem exDoc_long : (exDoc none).toOption.map (fun r => match lsPrint exCompile (exLsAll true) true (.ok r) with
    | .ok (.pieces l) => l.flatMap Styled.text
    | _ => []) = some (
      c!"# REQ-a\nCompleted: spc=66.7%  tst=0.0%\nFile: /p/design/a.md\nImplemented: not directly implemented\nParts:\n- SPC-a\nPartof:\n" ++
      c!"see [[SPC-A.X]] and [[SPC-gone]]\n\n\n\n# SPC-a\nCompleted: spc=66.7%  tst=0.0%\nFile: /p/design/a.md\n" ++
      c!"Implemented: /p/src/x.rs[0]Secondary{\".x\": /p/src/x.rs[1]}\nParts:\nPartof:\n- REQ-a\nhow [[.x]] [[.y]]\n```dot\n[[REQ-a]] -> [[.y]]\n```\n\n\n\n") := by
  decide +kernel

/-- The hypotheses of the theorems above hold for it. -/
example : ∃ c p, ReadsProject urlLibs (fun _ => some (exUrlRaw none)) exId 4 exDocFs c!"/p" (.ok (c, p)) ∧
    (∃ as, lsShown exCompile (exLsAll false) (.ok (c, p)) = .ok as ∧ as.length = 2 ∧ ∀ a ∈ as, '\n' ∉ a.file ∧ '\n' ∉ a.impl.show) ∧
    ∃ as, lsShown exCompile (exLsAll true) (.ok (c, p)) = .ok as ∧ as.length = 2 := by
  have h := exDoc_reads none
  have g : ∀ o : Res Categorized (Categorized × Project), (match o with
      | .ok r => (match lsShown exCompile (exLsAll false) (.ok r), lsShown exCompile (exLsAll true) (.ok r) with
        | .ok as, .ok as' => as.length == 2 && as.all (fun a => !a.file.contains '\n' && !a.impl.show.contains '\n') && as'.length == 2
        | _, _ => false)
      | _ => false) = true → ∃ c p, o = .ok (c, p) ∧
        (∃ as, lsShown exCompile (exLsAll false) (.ok (c, p)) = .ok as ∧ as.length = 2 ∧ ∀ a ∈ as, '\n' ∉ a.file ∧ '\n' ∉ a.impl.show) ∧
        ∃ as, lsShown exCompile (exLsAll true) (.ok (c, p)) = .ok as ∧ as.length = 2 := by
    rintro (⟨c, p⟩ | _ | _) ho
    · refine ⟨c, p, rfl, ?_⟩
      dsimp only at ho
      split at ho
      · rename_i as as' e1 e2
        simp only [Bool.and_eq_true, beq_iff_eq, List.all_eq_true, Bool.not_eq_true', List.contains_eq_mem, decide_eq_false_iff_not] at ho
        exact ⟨⟨as, e1, ho.1.1, ho.1.2⟩, as', e2, ho.2⟩
      · cases ho
    · cases ho
    · cases ho
  obtain ⟨c, p, e, h1, h2⟩ := g (exDoc none) (by decide +kernel)
  rw [e] at h
  exact ⟨c, p, h, h1, h2⟩

/-- A name that leads nowhere is in italics; one that is spelled differently is shown as its artifact spells it. -/
example : lookupStyle [] (Name.lit c!"SPC-gone") = .ok ⟨c!"SPC-gone", none, false, true⟩ ∧
    (exDoc none).toOption.map (fun r => lookupStyle r.2.artifacts (Name.lit c!"spc-A")) = some (.ok ⟨c!"SPC-a", some .yellow, false, false⟩) := by
  refine ⟨by decide +kernel, by decide +kernel⟩

end Art
