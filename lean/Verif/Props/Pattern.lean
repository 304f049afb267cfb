import Verif.Lemmas.PatternLang
import Verif.Props.Ls
import Verif.Props.Page

/-!
# C69: the regular expressions as texts
-/

namespace Art
open Spec

section
variable {U : CharData} {fold : Char → Char}

/-! ## the trees of the model are what the texts of /repo mean -/

theorem isMatch_of_captures {r : Rx} {a : Re} (h : ∀ s, r.captures U s = (a.full s).map fun c => (s, [], c)) (s : Str) : r.isMatch U s = a.isFull s := by
  have : r.isMatch U s = (r.captures U s).isSome := rfl
  rw [this, h, Option.isSome_map]
  rfl

/-- `NAME_VALID_RE` is accepted by `Regex::new`, and `is_match` is what `Name::from_str` uses in the model. -/
theorem C69_name (h : CharsOk U fold) : ∃ r, Rx.parse nameText = some r ∧ ∀ s, r.isMatch U s = nameRe.isFull s := by
  obtain ⟨r, h1, _, h2⟩ := anchored_of (U := U) norm_nameText (by decide)
  rw [toRe_nameP h] at h2
  exact ⟨r, h1, isMatch_of_captures h2⟩

/-- `VALID_SUB_NAME_RE`. -/
theorem C69_sub_name (h : CharsOk U fold) : ∃ r, Rx.parse subNameText = some r ∧ ∀ s, r.isMatch U s = subRe.isFull s := by
  obtain ⟨r, h1, _, h2⟩ := anchored_of (U := U) norm_subNameText (by decide)
  rw [toRe_subP h] at h2
  exact ⟨r, h1, isMatch_of_captures h2⟩

/-- `SUBNAME_TST_RE`. -/
theorem C69_tst (h : CharsOk U fold) : ∃ r, Rx.parse subnameTstText = some r ∧ ∀ s, r.isMatch U s = subnameTstRe.isFull s := by
  obtain ⟨r, h1, _, h2⟩ := anchored_of (U := U) norm_subnameTstText (by decide)
  rw [toRe_subnameTstP h] at h2
  exact ⟨r, h1, isMatch_of_captures h2⟩

/-- `TEXT_SUB_NAME_RE`: the matches in a text, and the group `sub`. -/
theorem C69_text_subs (h : CharsOk U fold) : ∃ r, Rx.parse textSubText = some r ∧
    ∀ s, r.capturesIter U s = textSubRe.findIter s ∧ ∀ m, r.name m c!"sub" = Caps.get m.2.2 1 := by
  obtain ⟨⟨pat, names⟩, h1, rfl, h2⟩ := floating_of (U := U) norm_textSubText (by decide)
  rw [toRe_textSubP h] at h2
  exact ⟨_, h1, fun s => ⟨(h2 s).2, fun _ => rfl⟩⟩

/-- `TEXT_REF_RE`: the matches in a text, and the groups `name` and `name_sub`. -/
theorem C69_text_refs (h : CharsOk U fold) : ∃ r, Rx.parse textRefText = some r ∧
    ∀ s, r.capturesIter U s = textRefRe.findIter s ∧ ∀ m, r.name m c!"name" = Caps.get m.2.2 1 ∧ r.name m c!"name_sub" = Caps.get m.2.2 2 := by
  obtain ⟨⟨pat, names⟩, h1, rfl, h2⟩ := floating_of (U := U) norm_textRefText (by decide)
  rw [toRe_textRefP h] at h2
  exact ⟨_, h1, fun s => ⟨(h2 s).2, fun _ => ⟨rfl, rfl⟩⟩⟩

/-- `SRC_NAME_RE`: the matches in a line of code, and the groups `skip` and `done`; the name is group 1 and the sub name is group 2. -/
theorem C69_source (h : CharsOk U fold) : ∃ r, Rx.parse srcText = some r ∧
    ∀ s, r.capturesIter U s = srcRe.findIter s ∧ ∀ m, r.name m c!"skip" = Caps.get m.2.2 3 ∧ r.name m c!"done" = Caps.get m.2.2 4 := by
  obtain ⟨⟨pat, names⟩, h1, rfl, h2⟩ := floating_of (U := U) norm_srcText (by decide)
  rw [toRe_srcP h] at h2
  exact ⟨_, h1, fun s => ⟨(h2 s).2, fun _ => ⟨rfl, rfl⟩⟩⟩

/-- `NAME_URL` and `EDIT_URL`: the first match in the fragment of a URL. -/
theorem C69_urls (h : CharsOk U fold) {nd : Char → Bool} (hd : U.digit = digitU nd) :
    (∃ r, Rx.parse nameUrlText = some r ∧ ∀ s, r.captures U s = nameUrlRe.find s) ∧ ∃ r, Rx.parse editUrlText = some r ∧ ∀ s, r.captures U s = (editUrlRe nd).find s := by
  obtain ⟨r, h1, _, h2⟩ := floating_of (U := U) norm_nameUrlText (by decide)
  obtain ⟨r', h1', _, h2'⟩ := floating_of (U := U) norm_editUrlText (by decide)
  rw [toRe_nameUrlP h] at h2
  rw [toRe_editUrlP h hd] at h2'
  exact ⟨⟨r, h1, fun s => (h2 s).1⟩, r', h1', fun s => (h2' s).1⟩

/-- `ATTRS_END_RE`, `ATTRS_CODE_RE` and `CODE_END_RE`: the lines of a markdown file that end the attributes, begin an art block and end one. -/
theorem C69_lines : (∃ r, Rx.parse attrsEndText = some r ∧ ∀ s, r.isMatch U s = attrsEndRe.isFull s) ∧
    (∃ r, Rx.parse attrsCodeText = some r ∧ ∀ s, r.isMatch U s = attrsCodeRe.isFull s) ∧ ∃ r, Rx.parse codeEndText = some r ∧ ∀ s, r.isMatch U s = codeEndRe.isFull s := by
  refine ⟨?_, ?_, ?_⟩
  · obtain ⟨r, h1, _, h2⟩ := anchored_of (U := U) norm_attrsEndText (by decide)
    rw [toRe_attrsEndP] at h2
    exact ⟨r, h1, isMatch_of_captures h2⟩
  · cases hr : Rx.parse attrsCodeText with
    | none =>
      have := norm_attrsCodeText
      rw [hr] at this
      cases this
    | some r =>
      have hn := norm_attrsCodeText
      rw [hr] at hn
      simp only [Option.map_some, Option.some.injEq, Prod.mk.injEq] at hn
      refine ⟨r, rfl, fun s => ?_⟩
      have e : r.isMatch U s = (r.pat.strip.find U none s).isSome := (Pat.find_strip r.pat none s).symm
      rw [e, (Pat.eqv_of_norm hn.1).find, Pat.find_full (by decide), Option.isSome_map, toRe_attrsCodeP]
      rfl
  · obtain ⟨r, h1, _, h2⟩ := anchored_of (U := U) norm_codeEndText (by decide)
    rw [toRe_codeEndP] at h2
    exact ⟨r, h1, isMatch_of_captures h2⟩

/-- The expression for the lines with the names, with any prefix of the settings in it: it is accepted, and a match is the whole line, with the groups of the model. -/
theorem C69_name_line (h : CharsOk U fold) (pre : Str) :
    ∃ r, Rx.parse (nameLineText pre) = some r ∧ ∀ s, r.captures U s = ((nameLineRe fold pre).full s).map fun c => (s, [], c) := captures_nameLine h pre

/-- `REPLACE_TEXT_RE` with `replace_all`: for every replacement the result is that of the model, and the replacement is never asked about a match that is none of the three. -/
theorem C69_replace (h : CharsOk U fold) : ∃ r, Rx.parse replaceText = some r ∧ ∀ (f : ReplMatch → Res Unit Str) (s : Str),
    r.replaceAll U (fun m => match replKind r m with | some k => f k | none => .panic) s = replaceAll f s.length true s := by
  cases hr : Rx.parse replaceText with
  | none =>
    have := norm_replaceText
    rw [hr] at this
    cases this
  | some r =>
    have hn := norm_replaceText
    rw [hr] at hn
    simp only [Option.map_some, Option.some.injEq, Prod.mk.injEq] at hn
    exact ⟨r, rfl, fun f s => replaceFrom_eq h hn.2 (Pat.eqv_of_norm hn.1) f s.length none s⟩

/-! ## what is searched for -/

/-- `is_match` of every expression: somewhere in the text there is one that the expression stands for. -/
theorem C69_is_match (r : Rx) (t : Str) : r.isMatch U t = true ↔ Occurs U r.pat t := isMatch_iff r t

/-- `art ls` with a pattern that has no option group does not regard case: names, texts and files that differ only in case are both kept or both dropped. -/
theorem C69_ls_case (h : CharsOk U fold) {p : Str} (hp : ¬ c!"(?" <:+: p) {m : Str → Bool} (hm : compileRx U (searchPattern p) = some m) {t t' : Str}
    (e : t.map fold = t'.map fold) : m t = m t' := by
  have hs : searchPattern p = c!"(?i)" ++ p := by
    unfold searchPattern
    rw [if_neg]
    intro hc
    exact hp (List.isPrefixOf_iff_prefix.mp hc).isInfix
  rw [hs] at hm
  simp only [compileRx, Option.map_eq_some_iff] at hm
  obtain ⟨r, hr, rfl⟩ := hm
  have hc := caseFree_parse hp hr
  rw [Bool.eq_iff_iff, isMatch_iff, isMatch_iff]
  exact ⟨occurs_fold h hc e.symm, occurs_fold h hc e⟩

theorem searchPattern_escape {w : Str} : searchPattern (escapePat w) = c!"(?i)" ++ escapePat w := by
  unfold searchPattern
  rw [if_neg]
  intro hc
  have hp := List.isPrefixOf_iff_prefix.mp hc
  cases w with
  | nil => simp [escapePat] at hp
  | cons c w =>
    have e : escapePat (c :: w) = escOne c ++ escapePat w := by simp [escapePat, escOne]
    rw [e] at hp
    unfold escOne at hp
    split at hp
    · obtain ⟨t, ht⟩ := hp
      simp at ht
    · rename_i hn
      obtain ⟨t, ht⟩ := hp
      simp only [List.cons_append, List.nil_append, List.cons.injEq] at ht
      rw [← ht.1] at hn
      exact hn (by decide)

/-- `art ls` with a word that is escaped finds exactly that word without regard to case. -/
theorem C69_ls_escaped (h : CharsOk U fold) (w : Str) : ∃ m, compileRx U (searchPattern (escapePat w)) = some m ∧ ∀ t, m t = true ↔ HasWord fold w t := by
  rw [searchPattern_escape]
  refine ⟨_, by rw [compileRx, rx_word]; rfl, fun t => ?_⟩
  rw [isMatch_iff]
  exact occurs_litsI h

/-- `art ls` with a plain word, for instance a name without its `-`, finds exactly that word without regard to case. -/
theorem C69_ls_word (h : CharsOk U fold) {w : Str} (hw : PlainText w) : ∃ m, compileRx U (searchPattern w) = some m ∧ ∀ t, m t = true ↔ HasWord fold w t := by
  have := C69_ls_escaped h w
  rwa [escapePat_plain hw] at this

/-- `art ls` with a pattern that begins with a group without a number takes the `(?` for an option and regards case: of a plain word in such a group only the exact word is found. -/
theorem C69_ls_group {w : Str} (hw : PlainText w) (hne : w ≠ []) :
    ∃ m, compileRx U (searchPattern (c!"(?:" ++ w ++ c!")")) = some m ∧ ∀ t, m t = true ↔ w <:+: t := by
  have hs : searchPattern (c!"(?:" ++ w ++ c!")") = c!"(?:" ++ w ++ c!")" := rfl
  have := parse_group hne
  rw [escapePat_plain hw] at this
  rw [hs]
  refine ⟨_, by rw [compileRx, this]; rfl, fun t => ?_⟩
  rw [isMatch_iff]
  exact occurs_seq_eps.trans occurs_lits

/-- The pages find a plain word without regard to case, and so they do when it is in a group: there the two differ from `art ls`. -/
theorem C69_page_word (h : CharsOk U fold) (msg : Str → Str) {w : Str} (hw : PlainText w) (hne : w ≠ []) :
    (∃ m, compilePage U msg w = .ok m ∧ ∀ t, m t = true ↔ HasWord fold w t) ∧
    ∃ m, compilePage U msg (c!"(?:" ++ w ++ c!")") = .ok m ∧ ∀ t, m t = true ↔ HasWord fold w t := by
  have h1 := parseI_word w
  have h2 := parseI_group hne
  rw [escapePat_plain hw] at h1 h2
  refine ⟨⟨_, by rw [compilePage, h1], fun t => ?_⟩, ⟨_, by rw [compilePage, h2], fun t => ?_⟩⟩
  · rw [isMatch_iff]
    exact occurs_litsI h
  · rw [isMatch_iff]
    exact occurs_seq_eps.trans (occurs_litsI h)

/-- An empty search field of a page is accepted and keeps everything: what `C59_reachable` asks of the library. -/
theorem C69_page_empty (msg : Str → Str) : ∃ m, compilePage U msg [] = .ok m ∧ ∀ t, m t = true := by
  refine ⟨_, rfl, fun t => ?_⟩
  rw [isMatch_iff]
  exact ⟨[], [], t, rfl, rfl⟩

/-- The search pane of a page with a plain word in its field has exactly the names with that word in them, without regard to case. -/
theorem C69_page_search (h : CharsOk U fold) {X : Type} (K : Web.Painter X) (msg : Str → Str) (hK : K.compile = compilePage U msg) (u : Web.UI) (x : X) (n : Web.Nav) (hn : n.searchOn = true)
    (hw : PlainText n.search) (hne : n.search ≠ []) :
    ∃ l : List Name, K.searchPane u x n = .input c!"search-input" n.search (fun v => .nav (.setSearch v)) :: l.map (K.nameLink x u.shared) ∧ l.Sublist (u.shared.map Prod.fst) ∧
      ∀ a, a ∈ l ↔ a ∈ u.shared.map Prod.fst ∧ HasWord fold n.search a.raw := by
  obtain ⟨⟨m, h1, h2⟩, _⟩ := C69_page_word h msg hw hne
  refine ⟨(u.shared.map Prod.fst).filter (fun a => m a.raw), ?_, List.filter_sublist, fun a => ?_⟩
  · unfold Web.Painter.searchPane
    rw [if_pos hn, hK, h1]
  · rw [List.mem_filter, h2]

section
variable {L : Libs} {readToml : Str → Option SettingsRaw} {hash : ArtifactIm → HashIm} {ncpu : Nat} {fs : FS} {base : FilePath} {c : Categorized} {p : Project}

/-- `art ls WORD` of a project that was read shows exactly the artifacts that have the word, without regard to case, in every field that is searched. -/
theorem C69_ls_shows (h : ReadsProject L readToml hash ncpu fs base (.ok (c, p))) (hU : CharsOk U fold) {cmd : Ls} {w : Str} {f : Flags} (hp : cmd.pattern = some w)
    (hw : PlainText w) (hf : Flags.fromStr cmd.fields = .ok f) (hi : f.impl = false) (ho : cmd.outputTy = c!"list" ∨ cmd.outputTy = c!"json") :
    ∃ as, lsShown (compileRx U) cmd (.ok (c, p)) = .ok as ∧ as.Pairwise (fun a b => a.name.keyStr < b.name.keyStr) ∧ ∀ a, a ∈ as ↔ a ∈ artsOf p.artifacts ∧
      (f.name = true → HasWord fold w a.name.raw) ∧ (f.file = true → HasWord fold w a.file) ∧ (f.parts = true → ∃ q ∈ a.parts, HasWord fold w q.raw) ∧
      (f.partof = true → ∃ q ∈ a.partof, HasWord fold w q.raw) ∧ (f.text = true → HasWord fold w a.text) := by
  obtain ⟨m, h1, h2⟩ := C69_ls_word hU hw
  obtain ⟨as, h3, h4, h5⟩ := C34_exact h hp h1 hf hi ho
  refine ⟨as, h3, h5, fun a => ?_⟩
  rw [h4]
  refine and_congr_right fun _ => ?_
  constructor
  · rintro ⟨k1, k2, k3, k4, k5⟩
    simp only [h2] at k1 k2 k3 k4 k5
    exact ⟨k1, k2, k3, k4, k5⟩
  · rintro ⟨k1, k2, k3, k4, k5⟩
    simp only [← h2] at k1 k2 k3 k4 k5
    exact ⟨k1, k2, k3, k4, k5⟩

end
end

/-! ## cases -/

/-- The characters as far as ASCII is concerned. -/
def exChars : CharData where
  same c := [c, foldC c, upperC (foldC c), longS, kelvin].filter fun d => foldC d == foldC c
  digit := digitU fun _ => false
  word c := nameCharI c

theorem exChars_ok : CharsOk exChars foldC where
  same c d := by
    simp only [exChars, List.mem_filter, beq_iff_eq, List.mem_cons, List.not_mem_nil, or_false]
    refine ⟨fun h => h.2, fun h => ⟨?_, h⟩⟩
    have hs : longS.toNat = 0x17F := by decide
    have hk : kelvin.toNat = 0x212A := by decide
    rw [← h]
    simp only [char_eq, upperC_toNat, foldC_toNat, hs, hk]
    split_ifs <;> omega
  ascii c d _ := Iff.rfl
  perl k c d h := by
    have h' := congrArg Char.toNat h
    rw [foldC_toNat, foldC_toNat] at h'
    cases k with
    | digit =>
      show digitU (fun _ => false) c = digitU (fun _ => false) d
      simp only [digitU, asciiDigit, Bool.and_false, Bool.or_false]
      rw [Bool.eq_iff_iff]
      simp only [Bool.and_eq_true, decide_eq_true_eq]
      split_ifs at h' <;> omega
    | space =>
      show isWS c = isWS d
      rw [Bool.eq_iff_iff]
      simp only [isWS, Bool.or_eq_true, Bool.and_eq_true, decide_eq_true_eq, beq_iff_eq]
      split_ifs at h' <;> omega
    | word => exact nameCharI_of_fold h

/-- Is a pattern of `art ls` found in a text? -/
def lsFinds (p t : Str) : Option Bool := (compileRx exChars (searchPattern p)).map (· t)

/-- Is a pattern of the search field of a page found in a text? -/
def pageFinds (p t : Str) : Option Bool := match compilePage exChars id p with | .ok m => some (m t) | .error _ => none

example : lsFinds c!"purpose" c!"REQ-Purpose" = some true ∧ lsFinds c!"purpose" c!"REQ-pur-pose" = some false := by decide +kernel
example : lsFinds c!"^(req|spc)-.*_a$" c!"SPC-x_A" = some true ∧ lsFinds c!"^(req|spc)-.*_a$" c!"TST-x_A" = some false := by decide +kernel
example : ¬ c!"(?" <:+: c!"^(req|spc)-.*_a$" := by decide +kernel
/-- The same pattern is found on a page and is not found by `art ls`. -/
example : lsFinds c!"(?:req|spc)-a" c!"REQ-a" = some false ∧ lsFinds c!"(?:req|spc)-a" c!"req-a" = some true ∧ pageFinds c!"(?:req|spc)-a" c!"REQ-a" = some true ∧
    lsFinds c!"(req|spc)-a" c!"REQ-a" = some true := by decide +kernel
/-- A word with a character that has a meaning has to be escaped. -/
example : lsFinds c!"a.b" c!"axb" = some true ∧ lsFinds (escapePat c!"a.b") c!"axb" = some false ∧ lsFinds (escapePat c!"a.b") c!"xA.By" = some true := by decide +kernel
example : lsFinds c!"a(b" c!"a(b" = none ∧ pageFinds c!"a(b" c!"a(b" = none := by decide +kernel
/-- A pattern that begins with `|` is taken by `art ls` and refused on a page. -/
example : lsFinds c!"|a" c!"x" = some false ∧ lsFinds c!"|a" c!"A" = some true ∧ pageFinds c!"|a" c!"A" = none := by decide +kernel
example : PlainText c!"purpose" ∧ ¬ PlainText c!"a.b" := by unfold PlainText; decide
example : HasWord foldC c!"purpose" c!"REQ-Purpose" := ⟨c!"REQ-", c!"Purpose", [], rfl, by decide⟩

example : ∃ r, Rx.parse nameText = some r ∧ r.isMatch exChars c!"req-A-b_1" = true ∧ r.isMatch exChars c!"REQ-a\n" = false := by
  obtain ⟨r, h1, h2⟩ := C69_name exChars_ok
  exact ⟨r, h1, by rw [h2]; decide +kernel, by rw [h2]; decide +kernel⟩

example : ∃ r, Rx.parse subNameText = some r ∧ r.isMatch exChars c!".TST-a" = true ∧ r.isMatch exChars c!".a-b" = false := by
  obtain ⟨r, h1, h2⟩ := C69_sub_name exChars_ok
  exact ⟨r, h1, by rw [h2]; decide +kernel, by rw [h2]; decide +kernel⟩

example : ∃ r, Rx.parse subnameTstText = some r ∧ r.isMatch exChars c!".tST-a" = true ∧ r.isMatch exChars c!".a" = false := by
  obtain ⟨r, h1, h2⟩ := C69_tst exChars_ok
  exact ⟨r, h1, by rw [h2]; decide +kernel, by rw [h2]; decide +kernel⟩

example : ∃ r, Rx.parse textSubText = some r ∧ (r.capturesIter exChars c!"a [[.b]] [[.tst-C]]").map (r.name · c!"sub") = [some c!".b", some c!".tst-C"] := by
  obtain ⟨r, h1, h2⟩ := C69_text_subs exChars_ok
  refine ⟨r, h1, ?_⟩
  rw [(h2 _).1, List.map_congr_left fun m _ => (h2 []).2 m]
  decide +kernel

example : ∃ r, Rx.parse textRefText = some r ∧
    (r.capturesIter exChars c!"[[req-a.b]] and [[SPC-c]]").map (fun m => (r.name m c!"name", r.name m c!"name_sub")) = [(some c!"req-a", some c!".b"), (some c!"SPC-c", none)] := by
  obtain ⟨r, h1, h2⟩ := C69_text_refs exChars_ok
  refine ⟨r, h1, ?_⟩
  rw [(h2 _).1, List.map_congr_left fun m _ => by rw [((h2 []).2 m).1, ((h2 []).2 m).2]]
  decide +kernel

example : ∃ r, Rx.parse srcText = some r ∧ (r.capturesIter exChars c!"// #SPC-a.b #art-done").map (fun m => (Caps.get m.2.2 1, Caps.get m.2.2 2, r.name m c!"done")) =
    [(some c!"SPC-a", some c!".b", none), (none, none, some c!"#art-done")] := by
  obtain ⟨r, h1, h2⟩ := C69_source exChars_ok
  refine ⟨r, h1, ?_⟩
  rw [(h2 _).1, List.map_congr_left fun m _ => by rw [((h2 []).2 m).2]]
  decide +kernel

example : ∃ r, Rx.parse editUrlText = some r ∧ (r.captures exChars c!"EDIT/12").map (fun m => Caps.get m.2.2 1) = some (some c!"12") := by
  obtain ⟨_, r, h1, h2⟩ := C69_urls exChars_ok (nd := fun _ => false) rfl
  refine ⟨r, h1, ?_⟩
  rw [h2]
  decide +kernel

example : ∃ r, Rx.parse attrsCodeText = some r ∧ r.isMatch exChars c!"```yaml art" = true ∧ r.isMatch exChars c!"```cart" = false := by
  obtain ⟨_, ⟨r, h1, h2⟩, _⟩ := C69_lines (U := exChars)
  exact ⟨r, h1, by rw [h2]; decide +kernel, by rw [h2]; decide +kernel⟩

example : ∃ r, Rx.parse (nameLineText c!"# (v1.0)?") = some r ∧ (r.captures exChars c!"# (V1.0)?# SPC-a ").map (fun m => Caps.get m.2.2 1) = some (some c!"SPC-a") ∧
    r.captures exChars c!"# (v1x0)?# SPC-a" = none := by
  obtain ⟨r, h1, h2⟩ := C69_name_line exChars_ok c!"# (v1.0)?"
  exact ⟨r, h1, by rw [h2]; decide +kernel, by rw [h2]; decide +kernel⟩

example : ∃ r, Rx.parse replaceText = some r ∧ r.replaceAll exChars (fun m => match replKind r m with
      | some (.sub _) => .ok c!"<s>"
      | some (.ref _) => .ok c!"<r>"
      | some (.dot _) => .ok c!"<d>"
      | none => .panic) c!"[[.a]] [[REQ-b]]\n```dot\nx\n```\n```dot y" = .ok c!"<s> <r>\n<d>\n```dot y" := by
  obtain ⟨r, h1, h2⟩ := C69_replace exChars_ok
  refine ⟨r, h1, ?_⟩
  have e := h2 (fun k => match k with | .sub _ => .ok c!"<s>" | .ref _ => .ok c!"<r>" | .dot _ => .ok c!"<d>") c!"[[.a]] [[REQ-b]]\n```dot\nx\n```\n```dot y"
  refine Eq.trans (congrArg (fun g => r.replaceAll exChars g _) (funext fun m => ?_)) (e.trans ?_)
  · cases replKind r m with
    | none => rfl
    | some k => cases k <;> rfl
  · decide +kernel

/-- `art ls b -f N` of a project that was read. -/
example : ∃ as, lsShown (compileRx exChars) { exLs c!"N" with pattern := some c!"B" } (.ok (⟨[], []⟩, exProject)) = .ok as ∧
    (∀ a, a ∈ as ↔ a ∈ artsOf exProject.artifacts ∧ HasWord foldC c!"B" a.name.raw) ∧ as.map (fun a => a.name.raw) = [c!"SPC-b"] := by
  obtain ⟨as, h1, _, h2⟩ := C69_ls_shows exProject_read exChars_ok (cmd := { exLs c!"N" with pattern := some c!"B" }) (w := c!"B") (f := { Flags.empty with name := true })
    rfl (by unfold PlainText; decide) (by decide) rfl (.inl rfl)
  refine ⟨as, h1, fun a => (h2 a).trans (and_congr_right fun _ => ⟨fun h => h.1 rfl, fun h => ⟨fun _ => h, nofun, nofun, nofun, nofun⟩⟩), ?_⟩
  have : (lsShown (compileRx exChars) { exLs c!"N" with pattern := some c!"B" } (.ok (⟨[], []⟩, exProject))).toOption.map (fun as => as.map (fun a => a.name.raw)) = some [c!"SPC-b"] := by
    decide +kernel
  rw [h1] at this
  simpa [Res.toOption] using this

/-- The search pane with the word `b`. -/
example (K : Web.Painter Unit) (hK : K.compile = compilePage exChars id) (u : Web.UI) (n : Web.Nav) (hn : n.searchOn = true) (hs : n.search = c!"b") :
    ∃ l : List Name, K.searchPane u () n = .input c!"search-input" n.search (fun v => .nav (.setSearch v)) :: l.map (K.nameLink () u.shared) ∧
      l.Sublist (u.shared.map Prod.fst) ∧ ∀ a, a ∈ l ↔ a ∈ u.shared.map Prod.fst ∧ HasWord foldC n.search a.raw :=
  C69_page_search exChars_ok K id hK u () n hn (by rw [hs]; unfold PlainText; decide) (by rw [hs]; decide)

end Art
