import Verif.Lemmas.MdExact
import Verif.Props.Raw
import Verif.Props.Completion

/-!
# Properties C21 and C22: markdown files

The conditions on artifacts (`Spec.RawOk`) and the contract asked of the YAML library (`Spec.YamlOk`) are in Verif/Spec/Markdown.lean.
-/

namespace Art
open Spec

/-- Written artifacts are read back: all of them, with their names as spelled, attributes, text and order, and nothing else. -/
theorem C21_roundtrip (L : Libs) (pre : Str) (a : MdAttrs) (m : IMap Name ArtifactRaw) (hs : SettingsOk pre a) (hm : IMap.Nodup m)
    (h : ∀ x ∈ m, RawOk L pre x.2) : ∃ s, toMarkdown L pre a m = .ok s ∧ fromMarkdown L pre s = .ok m := by
  refine ⟨_, toMarkdown_eq a h, ?_⟩
  obtain ⟨st, h1, h2, h3⟩ := mdLoop_file hs h (st := ⟨[], none, none, [], none⟩) (m := []) rfl rfl (by simpa using hm)
  unfold fromMarkdown
  rw [lines_file hs h, h1]
  show mdFinish L st = _
  unfold mdFinish mdClose
  rw [h2]
  exact h3

/-- Formatting a formatted file changes nothing. -/
theorem C22_idempotent (L : Libs) (pre : Str) (a : MdAttrs) (m : IMap Name ArtifactRaw) (hs : SettingsOk pre a) (hm : IMap.Nodup m)
    (h : ∀ x ∈ m, RawOk L pre x.2) (s : Str) (e : toMarkdown L pre a m = .ok s) :
    (fromMarkdown L pre s >>= fun m' => (toMarkdown L pre a m').mapErr (fun _ => LoadErr.io)) = .ok s := by
  obtain ⟨s', h1, h2⟩ := C21_roundtrip L pre a m hs hm h
  rw [e] at h1
  cases h1
  rw [h2]
  show (toMarkdown L pre a m).mapErr _ = _
  rw [e]
  rfl

/-- The class of safe texts is exact: a single artifact is read back exactly when its text is of that class. -/
theorem C21_exact (L : Libs) (pre : Str) (a : MdAttrs) (n : Name) (d : Option Str) (p : Option (ISet Name)) (t : Str) (hs : SettingsOk pre a)
    (h : RawOk L pre ⟨d, p, none⟩) (hne : t ≠ []) (hcl : cleanText t = t) :
    (∃ s, toMarkdown L pre a [(n, ⟨d, p, some t⟩)] = .ok s ∧ fromMarkdown L pre s = .ok [(n, ⟨d, p, some t⟩)]) ↔
      TextKept L.fold pre (d = none ∧ p = none) t := by
  have htn : trimEnd t ≠ [] := by
    intro e
    have := hcl
    unfold cleanText at this
    rw [e] at this
    exact hne this.symm
  obtain ⟨at', h1, h2, h3⟩ := fromMarkdown_one (a := a) hs h n (trimEnd t)
  have hlu : joinLines (lines t) = trimEnd t → (∀ l ∈ lines t, LineOk l) → lines (trimEnd t) = lines t := by
    intro e hok
    rw [← e]
    refine lines_joinLines hok ?_
    intro e0
    obtain ⟨init, ei⟩ := List.getLast?_eq_some_iff.1 e0
    obtain ⟨c, hc, hw⟩ := trimEnd_last' htn
    rw [← e, ei] at hc
    by_cases hi : init = []
    · subst hi; simp at hc
    · rw [joinLines_append hi (by simp), joinLines_one, getLast?_append_one] at hc
      cases hc
      revert hw; decide
  constructor
  · rintro ⟨s, e1, e2⟩
    rw [toMarkdown_one h a n htn] at e1
    cases e1
    rw [h3] at e2
    have hb := rest_budget (n := n) rfl e2
    simp only [Option.getD_some, budget, tot_nil, Nat.zero_add, Nat.add_zero] at hb
    have hink : ink t = ink (trimEnd t) := by rw [← ink_cleanText, hcl]
    have hcr : ¬ c!"\r\n" <:+: t := by
      intro hc
      have := tot_lines_crlf (crlf_trimEnd hcl htn hc)
      omega
    obtain ⟨f1, f2, f3, _⟩ := text_facts' hne hcl hcr
    have hl := hlu f3 f2
    rw [hl] at e2 hb
    have htot : ink t = tot (lines t) := by rw [hink, ← f3, ink_joinLines (fun l hl => (f2 l hl).1)]
    obtain ⟨init, last, el⟩ : ∃ init last, lines t = init ++ [last] := ⟨_, _, (List.dropLast_append_getLast f1).symm⟩
    refine ⟨hcr, init, last, el, ?_⟩
    have hlast : ∃ l, (lines t).getLast? = some l ∧ l ≠ [] := by
      refine ⟨last, by rw [el, getLast?_append_one], ?_⟩
      rintro rfl
      obtain ⟨c, hc, hw⟩ := trimEnd_last' htn
      rw [← f3, el] at hc
      by_cases hi : init = []
      · subst hi; simp at hc
      · rw [joinLines_append hi (by simp), joinLines_one, getLast?_append_one] at hc
        cases hc
        revert hw; decide
    have := rest_exact (n := n) rfl rfl hlast e2 (by simpa using htot) init last el
    refine ⟨this.1, this.2.imp id ?_⟩
    rintro ⟨q1, q2, q3⟩
    exact ⟨h2.1 q1, q2, q3⟩
  · rintro ⟨hcr, init, last, el, hi, hlast⟩
    obtain ⟨f1, f2, f3, _⟩ := text_facts' hne hcl hcr
    refine ⟨_, toMarkdown_one h a n htn, ?_⟩
    rw [h3, hlu f3 f2]
    have htext := textOf_lines hne hcl f3
    have hfin : insertFromParts L [] n at' (lines t) = .ok [(n, ⟨d, p, some t⟩)] := by
      unfold insertFromParts
      rw [h1, htext]
      rfl
    rcases hlast with hlast | ⟨q1, q2, q3⟩
    · have : ∀ l ∈ lines t, TextLine L.fold pre l := by
        rw [el]
        intro l hl
        rcases List.mem_append.1 hl with hl | hl
        · exact hi l hl
        · rw [List.mem_singleton.1 hl]; exact hlast
      unfold rest
      rw [mdLoop_text this rfl]
      exact hfin
    · obtain rfl := h2.2 q1
      rw [el] at hfin ⊢
      rw [rest_append, mdLoop_text hi rfl]
      show rest L pre ⟨[], some n, none, init, none⟩ [last] = _
      have hstep : mdStep L pre ⟨[], some n, none, init, none⟩ last = .ok ⟨[], some n, none, init, some (last, [])⟩ := by
        have hE : attrsEndRe.isFull last = false := by
          rw [← Bool.not_eq_true, endLine_iff]
          rintro ⟨k, w, _, e⟩
          obtain ⟨x, k', w', _, _, e'⟩ := q3
          rw [e] at e'
          simp [List.replicate_succ] at e'
        have hN : (nameLineRe L.fold pre).full last = none := by
          have : (nameLineRe L.fold pre).isFull last ≠ true := by rw [ne_eq, nameLine_iff]; exact q2
          unfold Re.isFull at this
          simpa using this
        unfold mdStep mdOuter
        simp only [hN, hE, fenceLine_iff.2 q3]
        rfl
      rw [rest_cons, hstep]
      exact hfin

/-- Both sides occur: a last line opening a block is kept without attributes; an inner one is not. -/
example (L : Libs) : (∃ s, toMarkdown L [] .hashes [(nm "SPC-a", ⟨none, none, some c!"a\n```art\n"⟩)] = .ok s ∧
      fromMarkdown L [] s = .ok [(nm "SPC-a", ⟨none, none, some c!"a\n```art\n"⟩)]) ∧
    RawOk L [] ⟨none, none, none⟩ ∧ ¬ TextKept L.fold [] (none = (none : Option Str) ∧ none = (none : Option (ISet Name))) c!"a\n```art\nb\n" := by
  have hr : RawOk L [] ⟨none, none, none⟩ := by constructor <;> first | simp | (constructor <;> simp [attrLines])
  refine ⟨⟨c!"# SPC-a\na\n```art", rfl, rfl⟩, hr, ?_⟩
  rw [← C21_exact L [] .hashes (nm "SPC-a") none none _ ⟨by decide, by simp⟩ hr (by decide) (by decide)]
  rintro ⟨s, h1, h2⟩
  have e1 : toMarkdown L [] .hashes [(nm "SPC-a", ⟨none, none, some c!"a\n```art\nb\n"⟩)] = .ok c!"# SPC-a\na\n```art\nb" := rfl
  rw [e1] at h1
  cases h1
  have e2 : fromMarkdown L [] c!"# SPC-a\na\n```art\nb" = .ok [(nm "SPC-a", ⟨none, none, some c!"a\n```art\n"⟩)] := rfl
  rw [e2] at h2
  have h3 := Res.ok.inj h2
  revert h3
  decide

/-- What the save path asks of an artifact beyond being clean. -/
structure ImOk (L : Libs) (pre : Str) (a : ArtifactIm) : Prop where
  nodup : ISet.Nodup a.partof
  clean : a.clean = a
  text : a.text ≠ [] → TextOk L.fold pre a.text
  yaml : YamlOk L (intoRaw a).2.2

theorem ImOk.raw {L : Libs} {pre : Str} {a : ArtifactIm} (h : ImOk L pre a) : RawOk L pre (intoRaw a).2.2 := by
  refine ⟨?_, ?_, h.yaml⟩
  · intro p hp
    have hp : (if a.partof.isEmpty then none else some a.partof) = some p := hp
    split at hp
    · simp at hp
    · rename_i hne
      cases hp
      refine ⟨by simpa using hne, h.nodup, ?_⟩
      have hc : sortNames (stripAuto a.name a.partof) = a.partof := congrArg ArtifactIm.partof h.clean
      rw [← hc]
      exact sortNames_eq_of_perm (sortNames_perm _) (nodup_sortNames (nodup_stripAuto h.nodup))
  · intro t ht
    have ht : (if a.text.isEmpty then none else some a.text) = some t := ht
    split at ht
    · simp at ht
    · rename_i hne
      cases ht
      exact h.text (by simpa using hne)

/-- The artifacts of a saved markdown file are loaded as they were, without a lint. -/
theorem C21_save_load (L : Libs) (pre : Str) (a : MdAttrs) (f : FilePath) (ims : List ArtifactIm) (hs : SettingsOk pre a)
    (hf : ArtFileType.fromPath f = some .md) (hn : ims.Pairwise (fun x y => key x.name ≠ key y.name))
    (h : ∀ x ∈ ims, ImOk L pre x ∧ x.file = f) :
    ∃ s, toMarkdown L pre a (ims.map (fun x => (intoRaw x).2)) = .ok s ∧ loadFile L pre f (.text s) = .ok (ims, []) := by
  obtain ⟨s, h1, h2⟩ := C21_roundtrip L pre a (ims.map (fun x => (intoRaw x).2)) hs
    (by
      unfold IMap.Nodup
      rw [List.map_map, List.Nodup, List.pairwise_map]
      exact hn)
    (by
      intro x hx
      obtain ⟨y, hy, rfl⟩ := List.mem_map.1 hx
      exact (h y hy).1.raw)
  refine ⟨s, h1, ?_⟩
  unfold loadFile
  rw [hf]
  simp only [parseFile, h2]
  congr 2
  rw [List.map_map]
  conv_rhs => rw [← List.map_id ims]
  apply List.map_congr_left
  intro x hx
  have hx' := h x hx
  have := C43_roundtrip x hx'.1.nodup hx'.1.clean
  rw [← hx'.2]
  exact this

/-! ## The contract can be met -/

/-- Escape newlines. -/
def escC (c : Char) : Str := if c = '\n' then c!"\\n" else if c = '\\' then c!"\\\\" else [c]

theorem esc_inj {a b : Str} (h : a.flatMap escC = b.flatMap escC) : a = b := by
  have hne : ∀ c, escC c ≠ [] := by intro c; unfold escC; split_ifs <;> simp
  induction a generalizing b with
  | nil =>
    cases b with
    | nil => rfl
    | cons c b => simp [hne] at h
  | cons x a ih =>
    cases b with
    | nil => simp [hne] at h
    | cons y b =>
      simp only [List.flatMap_cons] at h
      unfold escC at h
      by_cases hx1 : x = '\n' <;> by_cases hx2 : x = '\\' <;> by_cases hy1 : y = '\n' <;> by_cases hy2 : y = '\\' <;>
        simp_all
      all_goals first | exact ih h | exact ih h.2 | (obtain ⟨rfl, h⟩ := h; simp_all)

theorem esc_noNl (a : Str) : '\n' ∉ a.flatMap escC := by
  intro h
  obtain ⟨c, _, hc⟩ := List.mem_flatMap.1 h
  unfold escC at hc
  split_ifs at hc with h1 h2
  · revert hc; decide
  · revert hc; decide
  · simp at hc; exact h1 hc.symm

/-- The attributes of an artifact. -/
def GoodAttrs (r : ArtifactRaw) : Prop := ∀ p, r.partof = some p → p ≠ []

/-- A library that writes `done` in quotes with escapes. -/
noncomputable def someLibs : Libs :=
  let yd : Str → Str := fun d => c!"done: \"" ++ d.flatMap escC ++ ['"']
  let L0 : Libs := ⟨foldC, fun _ => none, yd, fun _ => none, fun _ => [], fun _ => none, fun _ => [], fun _ => [], fun _ => none⟩
  open Classical in
  { L0 with yamlRead := fun s =>
      if h : ∃ r : ArtifactRaw, GoodAttrs r ∧ s = joinLines (attrLines L0 r) then
        some ((Classical.choose h).done, (Classical.choose h).partof.map partofDoc)
      else none }

theorem partofLines_inj {p q : ISet Name} (h : partofLines p = partofLines q) (hp : p ≠ []) (hq : q ≠ []) : p = q := by
  have hraw : ∀ {a b : Name} {x : Str}, x ++ a.raw = x ++ b.raw → a = b := fun e => Name.ext_raw (List.append_cancel_left e)
  have hmap : ∀ {l k : List Name}, l.map (fun n : Name => c!"- " ++ n.raw) = k.map (fun n : Name => c!"- " ++ n.raw) → l = k := by
    intro l k e
    exact List.map_injective_iff.2 (fun a b e => hraw e) e
  match p, q, hp, hq with
  | [a], [b], _, _ =>
    have h : [c!"partof: " ++ a.raw] = [c!"partof: " ++ b.raw] := h
    rw [hraw (List.cons.inj h).1]
  | [a], b :: c :: l, _, _ => have := congrArg List.length h; simp [partofLines] at this
  | b :: c :: l, [a], _, _ => have := congrArg List.length h; simp [partofLines] at this
  | a :: b :: l, c :: d :: k, _, _ => exact hmap (List.cons.inj h).2

theorem partofLines_head (p : ISet Name) : ∃ l ls, partofLines p = l :: ls ∧ l.head? = some 'p' := by
  unfold partofLines
  split
  · exact ⟨_, _, rfl, rfl⟩
  · exact ⟨_, _, rfl, rfl⟩

theorem attrLines_inj {L : Libs} {r r' : ArtifactRaw} (hr : GoodAttrs r) (hr' : GoodAttrs r')
    (hd : ∀ d, (L.yamlDone d).head? = some 'd') (hi : ∀ d e, L.yamlDone d = L.yamlDone e → d = e)
    (h : attrLines L r = attrLines L r') : r.done = r'.done ∧ r.partof = r'.partof := by
  obtain ⟨done, partof, text⟩ := r
  obtain ⟨done', partof', text'⟩ := r'
  have key : ∀ d p, [] ≠ partofLines p ∧ ∀ l, L.yamlDone d :: l ≠ partofLines p := by
    intro d p
    obtain ⟨x, ls, e, hx⟩ := partofLines_head p
    rw [e]
    refine ⟨by simp, fun l e' => ?_⟩
    have := (List.cons.inj e').1
    rw [← this, hd] at hx
    cases hx
  cases done with
  | none =>
    cases partof with
    | none =>
      cases done' <;> cases partof' <;> simp only [attrLines] at h ⊢
      · simp
      · exact absurd h (key [] _).1
      · simp at h
      · simp at h
    | some p =>
      cases done' <;> cases partof' <;> simp only [attrLines] at h ⊢
      · exact absurd h.symm (key [] _).1
      · exact ⟨trivial, congrArg some (partofLines_inj h (hr p rfl) (hr' _ rfl))⟩
      · exact absurd h.symm ((key _ _).2 _)
      · exact absurd h.symm ((key _ _).2 _)
  | some d =>
    cases partof with
    | none =>
      cases done' <;> cases partof' <;> simp only [attrLines] at h ⊢
      · simp at h
      · exact absurd h ((key _ _).2 _)
      · exact ⟨congrArg some (hi _ _ (List.cons.inj h).1), trivial⟩
      · simp at h
    | some p =>
      cases done' <;> cases partof' <;> simp only [attrLines] at h ⊢
      · simp at h
      · exact absurd h ((key _ _).2 _)
      · simp at h
      · have h1 := List.cons.inj h
        have h2 := List.cons.inj h1.2
        exact ⟨congrArg some (hi _ _ h1.1), congrArg some (partofLines_inj h2.2 (hr p rfl) (hr' _ rfl))⟩

/-- There is a library that meets the contract for every artifact: every `done` text and every set of links. -/
theorem yamlOk_satisfiable : ∃ L : Libs, L.fold = foldC ∧ ∀ r : ArtifactRaw,
    (∀ p, r.partof = some p → p ≠ [] ∧ ISet.Nodup p ∧ sortNames p = p) → YamlOk L r := by
  refine ⟨someLibs, rfl, fun r hr => ?_⟩
  have hyd : ∀ d, someLibs.yamlDone d = c!"done: \"" ++ d.flatMap escC ++ ['"'] := fun _ => rfl
  have hi : ∀ d e, someLibs.yamlDone d = someLibs.yamlDone e → d = e := by
    intro d e h
    rw [hyd, hyd] at h
    exact esc_inj (List.append_cancel_left (List.append_cancel_right h))
  have hpre : ∀ r : ArtifactRaw, (∀ d, r.done = some d → c!"done:" <+: someLibs.yamlDone d) ∧
      (∀ d, r.done = some d → '\n' ∉ someLibs.yamlDone d) ∧
      (∀ d, r.done = some d → ∃ c, (someLibs.yamlDone d).getLast? = some c ∧ isWS c = false) ∧
      (∀ d, r.done = some d → '#' ∈ someLibs.yamlDone d → (someLibs.yamlDone d).getLast? = some '"') := by
    intro r
    refine ⟨fun d _ => ⟨c!" \"" ++ d.flatMap escC ++ ['"'], by rw [hyd]; rfl⟩, fun d _ => ?_, fun d _ => ⟨'"', ?_, by decide⟩, fun d _ _ => ?_⟩
    · rw [hyd]
      intro hm
      rcases List.mem_append.1 hm with hm | hm
      · rcases List.mem_append.1 hm with hm | hm
        · revert hm; decide
        · exact esc_noNl d hm
      · revert hm; decide
    · rw [hyd, getLast?_append_one]
    · rw [hyd, getLast?_append_one]
  refine ⟨(hpre r).1, (hpre r).2.1, (hpre r).2.2.1, (hpre r).2.2.2, fun hne => ?_⟩
  -- the attributes can be recovered from the text
  have hlines : ∀ r : ArtifactRaw, GoodAttrs r → lines (joinLines (attrLines someLibs r)) = attrLines someLibs r := by
    intro r hg
    have hsorted : ∀ p : ISet Name, p ≠ [] → (∀ l ∈ partofLines p, LineOk l) ∧ ∃ l, (partofLines p).getLast? = some l ∧ l ≠ [] := by
      intro p hp
      have hone : ∀ (a : Str) (n : Name), '\n' ∉ a → LineOk (a ++ n.raw) := by
        intro a n ha
        refine lineOk_of_visible ?_ (name_lastVisible n a)
        intro hm
        rcases List.mem_append.1 hm with hm | hm
        · exact ha hm
        · exact name_noNl hm
      match p, hp with
      | [n], _ =>
        refine ⟨?_, c!"partof: " ++ n.raw, rfl, by simp⟩
        intro l hl
        rw [List.mem_singleton.1 hl]
        exact hone _ n (by decide)
      | a :: b :: k, _ =>
        refine ⟨?_, ?_⟩
        · intro l hl
          rcases List.mem_cons.1 hl with rfl | hl
          · unfold LineOk; decide
          · obtain ⟨n, _, rfl⟩ := List.mem_map.1 hl
            exact hone _ n (by decide)
        · show ∃ l, (c!"partof:" :: (a :: b :: k).map (fun n : Name => c!"- " ++ n.raw)).getLast? = some l ∧ l ≠ []
          rw [List.getLast?_cons_of_ne_nil (by simp), List.getLast?_map]
          cases hx : (a :: b :: k).getLast? with
          | none => simp at hx
          | some y => exact ⟨_, rfl, by simp⟩
    have hdl : ∀ d, LineOk (someLibs.yamlDone d) := by
      intro d
      have := hpre ⟨some d, none, none⟩
      exact lineOk_of_visible (this.2.1 d rfl) (this.2.2.1 d rfl)
    obtain ⟨done, partof, text⟩ := r
    cases done with
    | none =>
      cases partof with
      | none => rfl
      | some p =>
        obtain ⟨h1, l, h2, h3⟩ := hsorted p (hg p rfl)
        exact lines_joinLines h1 (by rw [show attrLines someLibs ⟨none, some p, text⟩ = partofLines p from rfl, h2]; simpa using h3)
    | some d =>
      cases partof with
      | none =>
        refine lines_joinLines ?_ ?_
        · intro l hl; rw [List.mem_singleton.1 hl]; exact hdl d
        · show some (someLibs.yamlDone d) ≠ some []
          rw [hyd]; simp
      | some p =>
        obtain ⟨h1, l, h2, h3⟩ := hsorted p (hg p rfl)
        have hpn : partofLines p ≠ [] := by intro e; rw [e] at h2; simp at h2
        refine lines_joinLines ?_ ?_
        · intro l hl
          have hl : l ∈ someLibs.yamlDone d :: [] :: partofLines p := hl
          rcases List.mem_cons.1 hl with rfl | hl
          · exact hdl d
          · rcases List.mem_cons.1 hl with rfl | hl
            · unfold LineOk; decide
            · exact h1 l hl
        · show (someLibs.yamlDone d :: [] :: partofLines p).getLast? ≠ _
          rw [List.getLast?_cons_of_ne_nil (by simp), List.getLast?_cons_of_ne_nil hpn, h2]
          simpa using h3
  have hg : GoodAttrs r := fun p hp => (hr p hp).1
  have hex : ∃ r' : ArtifactRaw, GoodAttrs r' ∧ joinLines (attrLines someLibs r) = joinLines (attrLines someLibs r') := ⟨r, hg, rfl⟩
  have hread : someLibs.yamlRead (joinLines (attrLines someLibs r)) =
      some ((Classical.choose hex).done, (Classical.choose hex).partof.map partofDoc) := by
    unfold someLibs
    exact dif_pos hex
  obtain ⟨hg', he⟩ := Classical.choose_spec hex
  have hl := congrArg lines he
  rw [hlines r hg, hlines _ hg'] at hl
  obtain ⟨e1, e2⟩ := attrLines_inj hg hg' (fun d => by rw [hyd]; rfl) hi hl
  rw [hread, ← e1, ← e2]

/-! ## Cases -/

/-- Two artifacts: attributes and text of several lines with headings and a code block of another kind; nothing but a name. -/
def exMd : IMap Name ArtifactRaw :=
  [(nm "SPC-Foo", ⟨some c!"by # hand", some [nm "REQ-a", nm "REQ-b"], some c!"# Title\n```rust\nx\n```\nmore\n"⟩), (nm "TST-b", ⟨none, none, none⟩)]

theorem exMd_ok : ∃ L : Libs, ∀ x ∈ exMd, RawOk L c!"#" x.2 := by
  obtain ⟨L, hL, h⟩ := yamlOk_satisfiable
  have hp : ∀ x ∈ exMd, ∀ p, x.2.partof = some p → p ≠ [] ∧ ISet.Nodup p ∧ sortNames p = p := by
    intro x hx p hp
    simp only [exMd, List.mem_cons, List.not_mem_nil, or_false] at hx
    rcases hx with rfl | rfl
    · cases hp
      exact ⟨by simp, by unfold ISet.Nodup; decide, by decide⟩
    · cases hp
  refine ⟨L, fun x hx => ⟨hp x hx, ?_, h x.2 (hp x hx)⟩⟩
  intro t ht
  simp only [exMd, List.mem_cons, List.not_mem_nil, or_false] at hx
  rcases hx with rfl | rfl
  · cases ht
    rw [hL]
    refine ⟨by simp, by decide, by decide, ?_⟩
    have : ∀ l ∈ lines c!"# Title\n```rust\nx\n```\nmore\n",
        (nameLineRe foldC c!"#").isFull l = false ∧ attrsEndRe.isFull l = false ∧ attrsCodeRe.isFull l = false := by decide
    intro l hl
    obtain ⟨h1, h2, h3⟩ := this l hl
    exact ⟨by rw [← nameLine_iff, h1]; simp, by rw [← endLine_iff, h2]; simp, by rw [← fenceLine_iff, h3]; simp⟩
  · cases ht

example : ∃ L : Libs, ∃ s, toMarkdown L c!"#" (.code (some c!"yaml")) exMd = .ok s ∧ fromMarkdown L c!"#" s = .ok exMd := by
  obtain ⟨L, h⟩ := exMd_ok
  exact ⟨L, C21_roundtrip L _ _ _ ⟨by decide, by rintro p ⟨⟩; decide⟩ (by unfold IMap.Nodup; decide) h⟩

/-- The round trip fails for text with a line opening an attribute block, even though nothing is reported: the rest of the text is lost. -/
theorem C21_fence_loses_text (L : Libs) : ∃ s, toMarkdown L [] .hashes [(nm "SPC-a", ⟨none, none, some c!"a\n```art\nb\n"⟩)] = .ok s ∧
    fromMarkdown L [] s = .ok [(nm "SPC-a", ⟨none, none, some c!"a\n```art\n"⟩)] :=
  ⟨c!"# SPC-a\na\n```art\nb", rfl, rfl⟩

/-- Such a line also swallows the artifacts after it. -/
theorem C21_fence_loses_artifact (L : Libs) :
    ∃ s, toMarkdown L [] .hashes [(nm "SPC-a", ⟨none, none, some c!"a\n```art\n"⟩), (nm "SPC-b", ⟨none, none, some c!"b"⟩)] = .ok s ∧
    fromMarkdown L [] s = .ok [(nm "SPC-a", ⟨none, none, some c!"a\n```art\n"⟩)] :=
  ⟨c!"# SPC-a\na\n```art\n\n\n# SPC-b\nb", rfl, rfl⟩

/-- A carriage return at the end of a line is lost. -/
theorem C21_cr_lost (L : Libs) : ∃ s, toMarkdown L [] .hashes [(nm "SPC-a", ⟨none, none, some c!"a\r\nb\n"⟩)] = .ok s ∧
    fromMarkdown L [] s = .ok [(nm "SPC-a", ⟨none, none, some c!"a\nb\n"⟩)] :=
  ⟨c!"# SPC-a\na\r\nb", rfl, rfl⟩

/-- Hence the round trip does not hold for all artifacts. -/
theorem C21_all_false : ¬ ∀ (L : Libs) (m : IMap Name ArtifactRaw) (s : Str), IMap.Nodup m → (∀ x ∈ m, x.2.text.map cleanText = x.2.text) →
    toMarkdown L [] .hashes m = .ok s → fromMarkdown L [] s = .ok m := by
  intro h
  obtain ⟨L, _⟩ := yamlOk_satisfiable
  obtain ⟨s, h1, h2⟩ := C21_fence_loses_text L
  have := h L _ s (by unfold IMap.Nodup; decide) (by decide) h1
  rw [h2] at this
  have h3 := Res.ok.inj this
  revert h3
  decide

/-- A file whose last artifact has an open attribute block is read; formatting it with the artifacts in the order of their names makes a file
from which an artifact is lost: formatting is not idempotent on files that can be read. -/
theorem C22_open_fence_false (L : Libs) : ∃ m m' s',
    fromMarkdown L [] c!"# SPC-b\nb\n\n# SPC-a\n```art" = .ok m ∧ m.map Prod.fst = [nm "SPC-b", nm "SPC-a"] ∧
    toMarkdown L [] .hashes (sortOn (fun x => x.1.keyStr) m) = .ok s' ∧ fromMarkdown L [] s' = .ok m' ∧
    m'.map Prod.fst = [nm "SPC-a"] :=
  ⟨[(nm "SPC-b", ⟨none, none, some c!"b"⟩), (nm "SPC-a", ⟨none, none, some c!"```art"⟩)], [(nm "SPC-a", ⟨none, none, some c!"```art"⟩)],
    c!"# SPC-a\n```art\n\n\n# SPC-b\nb", rfl, rfl, rfl, rfl, rfl⟩

end Art
