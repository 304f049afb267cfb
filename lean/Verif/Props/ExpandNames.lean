import Verif.Lemmas.ExpandNames
import Verif.Props.Name

/-!
# Property C06: collapsed names

The specification is a grammar with a denotation: it does not mention the parser, its string buffers or
its recursion.
-/

namespace Art.Spec

/-- Text without brackets, commas and ignored blanks. -/
def Plain (w : Str) : Prop := ∀ c ∈ w, c ≠ '[' ∧ c ≠ ']' ∧ c ≠ ',' ∧ c ≠ ' ' ∧ c ≠ '\n' ∧ c ≠ '\r'

/-- The pieces a word stands for: nothing if it is empty. -/
def word (w : Str) : List Str := if w = [] then [] else [w]

/-- `Denotes s ns`: the collapsed list `s` (without blanks) stands for the full names `ns`. A bracket
distributes the word in front of it over everything inside, at any depth. -/
inductive Denotes : Str → List Str → Prop
  | last (w : Str) : Plain w → Denotes w (word w)
  | comma (w s : Str) (ns : List Str) : Plain w → Denotes s ns → Denotes (w ++ ',' :: s) (word w ++ ns)
  | group (w t s : Str) (ms ns : List Str) : Plain w → w ≠ [] → Denotes t ms → Denotes s ns →
      Denotes (w ++ '[' :: (t ++ ']' :: s)) (ms.map (fun m => w ++ m) ++ ns)

/-- Blanks (space, newline, carriage return) are ignored everywhere. -/
def noBlank (s : Str) : Str := s.filter (fun c => c ≠ ' ' ∧ c ≠ '\n' ∧ c ≠ '\r')

end Art.Spec

namespace Art
open Spec

theorem noBlank_eq_strip (s : Str) : noBlank s = strip s := by
  unfold noBlank strip
  congr 1
  funext c
  rw [Bool.eq_iff_iff]
  simp [isSkip, not_or, and_assoc]

theorem plain_comma {w : Str} (h : Plain w) : ',' ∉ w := fun hm => (h _ hm).2.2.1 rfl

theorem pieces_word {w : Str} (h : Plain w) : pieces w = word w := pieces_plain (plain_comma h)

theorem denotes_no_comma {s : Str} {ns : List Str} (h : Denotes s ns) : ∀ n ∈ ns, ',' ∉ n := by
  have hw : ∀ w, Plain w → ∀ n ∈ word w, ',' ∉ n := by
    intro w hp n hn
    unfold word at hn
    split at hn
    · simp at hn
    · simp at hn; subst hn; exact plain_comma hp
  induction h with
  | last w hp => exact hw w hp
  | comma w s ns hp _ ih =>
    intro n hn
    rcases List.mem_append.1 hn with h | h
    · exact hw w hp n h
    · exact ih n h
  | group w t s ms ns hp _ _ _ ih1 ih2 =>
    intro n hn
    rcases List.mem_append.1 hn with h | h
    · obtain ⟨m, hm, rfl⟩ := List.mem_map.1 h
      simp only [List.mem_append, not_or]
      exact ⟨plain_comma hp, ih1 m hm⟩
    · exact ih2 n h

/-- Reading a plain word. -/
theorem parse_word (w : Str) : ∀ (hp : Plain w) (f : Nat) (s : Str) b out cur,
    parseCollapsed (f + w.length) (w ++ s) b out cur = parseCollapsed f s b out (cur ++ w) := by
  induction w with
  | nil => intro _ f s b out cur; simp
  | cons c w ih =>
    intro hp f s b out cur
    have hc := hp c (by simp)
    have hp' : Plain w := fun d hd => hp d (by simp [hd])
    have : f + (c :: w).length = (f + w.length) + 1 := by simp; omega
    rw [this, List.cons_append]
    simp only [parseCollapsed]
    rw [if_neg (by tauto), if_neg hc.1, if_neg hc.2.1, if_neg hc.2.2.1, ih hp']
    simp

/-- Completeness: a denoting string is parsed to its denotation. -/
theorem parse_of_denotes {s : Str} {ns : List Str} (h : Denotes s ns) :
    ∀ (f : Nat) (out : Str), Closed out →
      (s.length < f → parseCollapsed f s false out [] = .ok (pieces out ++ ns, [])) ∧
      (∀ rest : Str, s.length + 1 + rest.length < f →
        parseCollapsed f (s ++ ']' :: rest) true out [] = .ok (pieces out ++ ns, rest)) := by
  induction h with
  | last w hp =>
    intro f out hout
    constructor
    · intro hf
      obtain ⟨g, rfl⟩ : ∃ g, f = (g + 1) + w.length := ⟨f - w.length - 1, by omega⟩
      have := parse_word w hp (g + 1) [] false out []
      simp only [List.append_nil, List.nil_append] at this
      rw [this]
      simp [parseCollapsed, pieces_closed hout, pieces_word hp]
    · intro rest hf
      obtain ⟨g, rfl⟩ : ∃ g, f = (g + 1) + w.length := ⟨f - w.length - 1, by omega⟩
      rw [parse_word w hp]
      simp [parseCollapsed, pieces_closed hout, pieces_word hp]
  | comma w s ns hp _ ih =>
    intro f out hout
    have hcl : Closed (out ++ w ++ [',']) := Or.inr ⟨out ++ w, rfl⟩
    have hpc : pieces (out ++ w ++ [',']) = pieces out ++ word w := by
      have h1 : out ++ w ++ [','] = (out ++ w) ++ ',' :: [] := by simp
      rw [h1, pieces_append_comma, pieces_closed hout, pieces_word hp]; simp
    constructor
    · intro hf
      simp only [List.length_append, List.length_cons] at hf
      obtain ⟨g, rfl⟩ : ∃ g, f = (g + 1) + w.length := ⟨f - w.length - 1, by omega⟩
      rw [parse_word w hp]
      simp only [parseCollapsed, List.nil_append]
      simp only [Char.reduceEq, or_self, if_false, if_true]
      rw [(ih g _ hcl).1 (by omega), hpc, List.append_assoc]
    · intro rest hf
      simp only [List.length_append, List.length_cons] at hf
      obtain ⟨g, rfl⟩ : ∃ g, f = (g + 1) + w.length := ⟨f - w.length - 1, by omega⟩
      rw [List.append_assoc, parse_word w hp]
      simp only [parseCollapsed, List.nil_append, List.cons_append]
      simp only [Char.reduceEq, or_self, if_false, if_true]
      rw [(ih g _ hcl).2 rest (by omega), hpc, List.append_assoc]
  | group w t s ms ns hp hne ht hs iht ihs =>
    intro f out hout
    have hms := denotes_no_comma ht
    have hcl : Closed (out ++ ms.flatMap (fun p => w ++ p ++ [','])) := closed_flatMap hout ms
    have hpc : pieces (out ++ ms.flatMap (fun p => w ++ p ++ [','])) = pieces out ++ ms.map (fun m => w ++ m) := by
      rw [pieces_closed hout, pieces_flatMap (plain_comma hp) hne ms hms]
    constructor
    · intro hf
      simp only [List.length_append, List.length_cons] at hf
      obtain ⟨g, rfl⟩ : ∃ g, f = (g + 1) + w.length := ⟨f - w.length - 1, by omega⟩
      rw [parse_word w hp]
      simp only [parseCollapsed, List.nil_append]
      simp only [Char.reduceEq, or_self, if_false, if_true, if_neg hne]
      rw [(iht g [] (Or.inl rfl)).2 s (by omega)]
      simp only [pieces_nil, List.nil_append]
      rw [(ihs g _ hcl).1 (by omega), hpc, List.append_assoc]
    · intro rest hf
      simp only [List.length_append, List.length_cons] at hf
      obtain ⟨g, rfl⟩ : ∃ g, f = (g + 1) + w.length := ⟨f - w.length - 1, by omega⟩
      have e : w ++ '[' :: (t ++ ']' :: s) ++ ']' :: rest = w ++ '[' :: (t ++ ']' :: (s ++ ']' :: rest)) := by simp
      rw [e, parse_word w hp]
      simp only [parseCollapsed, List.nil_append]
      simp only [Char.reduceEq, or_self, if_false, if_true, if_neg hne]
      rw [(iht g [] (Or.inl rfl)).2 (s ++ ']' :: rest) (by simp only [List.length_append, List.length_cons]; omega)]
      simp only [pieces_nil, List.nil_append]
      rw [(ihs g _ hcl).2 rest (by omega), hpc, List.append_assoc]

/-- Soundness: whatever is parsed is a denotation. -/
theorem denotes_of_parse (f : Nat) : ∀ (s : Str) b out cur ps rest,
    (∀ c ∈ s, c ≠ ' ' ∧ c ≠ '\n' ∧ c ≠ '\r') → Closed out → Plain cur →
    parseCollapsed f s b out cur = .ok (ps, rest) →
    ∃ t ms, Denotes (cur ++ t) ms ∧ ps = pieces out ++ ms ∧
      s = (if b then t ++ ']' :: rest else t) ∧ (b = false → rest = []) := by
  induction f with
  | zero => intro s b out cur ps rest _ _ _ h; simp [parseCollapsed] at h
  | succ f ih =>
    intro s b out cur ps rest hs hout hcur h
    cases s with
    | nil =>
      simp only [parseCollapsed] at h
      split at h
      · simp at h
      · rename_i hb
        simp at h
        obtain ⟨rfl, rfl⟩ := h
        refine ⟨[], word cur, by simpa using Denotes.last cur hcur, ?_, by simp [hb], fun _ => rfl⟩
        rw [pieces_closed hout, pieces_word hcur]
    | cons c s =>
      have hc := hs c (by simp)
      have hs' : ∀ c ∈ s, c ≠ ' ' ∧ c ≠ '\n' ∧ c ≠ '\r' := fun d hd => hs d (by simp [hd])
      simp only [parseCollapsed] at h
      rw [if_neg (by tauto)] at h
      by_cases h1 : c = '['
      · rw [if_pos h1] at h
        split at h
        · simp at h
        · rename_i hne
          cases hr : parseCollapsed f s true [] [] with
          | err e => rw [hr] at h; simp at h
          | panic => rw [hr] at h; simp at h
          | ok q =>
            obtain ⟨qs, rest1⟩ := q
            rw [hr] at h
            simp only at h
            obtain ⟨t1, ms1, hd1, hq, hs1, _⟩ := ih s true [] [] qs rest1 hs' (Or.inl rfl) (by simp [Plain]) hr
            simp only [pieces_nil, List.nil_append] at hq hd1
            subst hq
            simp only [if_true] at hs1
            have hrest1 : ∀ c ∈ rest1, c ≠ ' ' ∧ c ≠ '\n' ∧ c ≠ '\r' := by
              intro d hd; apply hs'; rw [hs1]; simp [hd]
            obtain ⟨t2, ms2, hd2, hp2, hs2, hb2⟩ := ih rest1 b _ [] ps rest hrest1 (closed_flatMap hout qs)
              (by simp [Plain]) h
            simp only [List.nil_append] at hd2
            refine ⟨'[' :: (t1 ++ ']' :: t2), qs.map (fun m => cur ++ m) ++ ms2,
              Denotes.group cur t1 t2 qs ms2 hcur hne hd1 hd2, ?_, ?_, hb2⟩
            · rw [hp2, pieces_closed hout, pieces_flatMap (plain_comma hcur) hne qs (denotes_no_comma hd1),
                List.append_assoc]
            · rw [h1, hs1, hs2]
              cases b <;> simp
      · rw [if_neg h1] at h
        by_cases h2 : c = ']'
        · rw [if_pos h2] at h
          cases b with
          | false => simp at h
          | true =>
            simp at h
            obtain ⟨rfl, rfl⟩ := h
            refine ⟨[], word cur, by simpa using Denotes.last cur hcur, ?_, by simp [h2], by simp⟩
            rw [pieces_closed hout, pieces_word hcur]
        · rw [if_neg h2] at h
          by_cases h3 : c = ','
          · rw [if_pos h3] at h
            obtain ⟨t, ms, hd, hp, hs1, hb1⟩ := ih s b _ [] ps rest hs' (Or.inr ⟨out ++ cur, rfl⟩) (by simp [Plain]) h
            simp only [List.nil_append] at hd
            refine ⟨',' :: t, word cur ++ ms, Denotes.comma cur t ms hcur hd, ?_, ?_, hb1⟩
            · have e1 : out ++ cur ++ [','] = (out ++ cur) ++ ',' :: [] := by simp
              rw [hp, e1, pieces_append_comma, pieces_closed hout, pieces_word hcur]; simp
            · rw [h3, hs1]; cases b <;> simp
          · rw [if_neg h3] at h
            have hcur' : Plain (cur ++ [c]) := by
              intro d hd
              rcases List.mem_append.1 hd with hd | hd
              · exact hcur d hd
              · simp at hd; subst hd; exact ⟨h1, h2, h3, hc.1, hc.2.1, hc.2.2⟩
            obtain ⟨t, ms, hd, hp, hs1, hb1⟩ := ih s b out (cur ++ [c]) ps rest hs' hout hcur' h
            refine ⟨c :: t, ms, by simpa using hd, hp, ?_, hb1⟩
            rw [hs1]; cases b <;> simp

theorem parse_ok_iff (s : Str) (ps : List Str) :
    (∃ rest, parseCollapsed (s.length + 1) s false [] [] = .ok (ps, rest)) ↔ Denotes (noBlank s) ps := by
  rw [noBlank_eq_strip]
  have hlen : (strip s).length < s.length + 1 := Nat.lt_succ_of_le (List.length_filter_le _ _)
  constructor
  · rintro ⟨rest, h⟩
    have h' := (parse_strip (s.length + 1) s false [] [] (by omega)).1 ps rest h
    obtain ⟨t, ms, hd, hp, hs, _⟩ := denotes_of_parse _ _ _ _ _ _ _ (by
      intro c hc
      rw [strip, List.mem_filter] at hc
      have := hc.2
      simp [isSkip, and_assoc] at this
      exact this) (Or.inl rfl) (by simp [Plain]) h'
    simp only [pieces_nil, List.nil_append, Bool.false_eq_true, if_false] at hd hp hs
    rw [hs, hp]; exact hd
  · intro hd
    have h1 := (parse_of_denotes hd (s.length + 1) [] (Or.inl rfl)).1 hlen
    simp only [pieces_nil, List.nil_append] at h1
    cases hr : parseCollapsed (s.length + 1) s false [] [] with
    | ok q =>
      obtain ⟨qs, rest⟩ := q
      have h2 := (parse_strip (s.length + 1) s false [] [] (by omega)).1 qs rest hr
      rw [h1] at h2
      simp at h2
      exact ⟨rest, by rw [h2.1]⟩
    | err e =>
      have h2 := (parse_strip (s.length + 1) s false [] [] (by omega)).2 e hr
      rw [h1] at h2; simp at h2
    | panic => exact absurd hr (parse_fuel _ _ _ _ _ (by omega)).1

/-! ## C06 -/

/-- Expansion succeeds exactly when the text denotes a list of valid names, and then yields
exactly those names in order of first occurrence (the set has each name once, spelled as first written). -/
theorem C06_expand_iff (s : Str) (r : ISet Name) :
    expandNames s = .ok r ↔
      ∃ ps ns, Denotes (noBlank s) ps ∧ List.Forall₂ (fun p n => Name.fromStr p = .ok n) ps ns ∧
        r = ISet.collect ns := by
  unfold expandNames
  rw [Res.bind_eq_ok]
  constructor
  · rintro ⟨⟨ps, rest⟩, h1, h2⟩
    rw [Res.bind_eq_ok] at h2
    obtain ⟨ns, h3, h4⟩ := h2
    refine ⟨ps, ns, (parse_ok_iff s ps).1 ⟨rest, h1⟩, Res.mapM'_eq_ok.1 h3, ?_⟩
    simp at h4; exact h4.symm
  · rintro ⟨ps, ns, h1, h2, rfl⟩
    obtain ⟨rest, h⟩ := (parse_ok_iff s ps).2 h1
    refine ⟨(ps, rest), h, ?_⟩
    rw [Res.bind_eq_ok]
    exact ⟨ns, Res.mapM'_eq_ok.2 h2, rfl⟩

/-- The denotation is unique, so the expansion is unambiguous. -/
theorem C06_denotes_unique (s : Str) (ps qs : List Str) (h1 : Denotes s ps) (h2 : Denotes s qs) : ps = qs := by
  have a := (parse_of_denotes h1 (s.length + 1) [] (Or.inl rfl)).1 (by omega)
  have b := (parse_of_denotes h2 (s.length + 1) [] (Or.inl rfl)).1 (by omega)
  rw [a] at b
  simpa using b

/-- A malformed bracket structure is always reported as such; the parser itself never panics. -/
theorem C06_error_iff (s : Str) : expandNames s = .err .invalidCollapsed ↔ ¬ ∃ ps, Denotes (noBlank s) ps := by
  have hnp := (parse_fuel (s.length + 1) s false [] [] (by omega)).1
  have herr : ∀ f s b out cur e, parseCollapsed f s b out cur = .err e → e = .invalidCollapsed := by
    intro f
    induction f with
    | zero => intro s b out cur e h; simp [parseCollapsed] at h
    | succ f ih =>
      intro s b out cur e h
      cases s with
      | nil => simp only [parseCollapsed] at h; split at h <;> simp at h; exact h.symm
      | cons c s =>
        simp only [parseCollapsed] at h
        split at h
        · exact ih _ _ _ _ _ h
        · split at h
          · split at h
            · simp at h; exact h.symm
            · split at h
              · exact ih _ _ _ _ _ h
              · rename_i e' hr; simp at h; subst h; exact ih _ _ _ _ _ hr
              · simp at h
          · split at h
            · split at h <;> simp at h; exact h.symm
            · split at h
              · exact ih _ _ _ _ _ h
              · exact ih _ _ _ _ _ h
  have hname : ∀ (ps : List Str), Res.mapM' Name.fromStr ps ≠ .err .invalidCollapsed := by
    intro ps
    induction ps with
    | nil => simp [Res.mapM']
    | cons p ps ih =>
      simp only [Res.mapM']
      cases hp : Name.fromStr p with
      | panic => simp
      | err e =>
        simp only [Res.bind_err, ne_eq, Res.err.injEq]
        rintro rfl
        rw [Name.fromStr_eq_err] at hp
        unfold InternalName.fromStr at hp
        split at hp
        · simp at hp
        · simp only at hp
          split at hp
          · simp at hp
          · split_ifs at hp
      | ok n =>
        simp only [Res.bind_ok]
        cases hq : Res.mapM' Name.fromStr ps with
        | ok l => simp
        | panic => simp
        | err e =>
          simp only [Res.bind_err, ne_eq, Res.err.injEq]
          rintro rfl
          exact ih hq
  unfold expandNames
  constructor
  · rintro h ⟨ps, hd⟩
    obtain ⟨rest, hr⟩ := (parse_ok_iff s ps).2 hd
    rw [hr] at h
    simp only [Res.bind_ok] at h
    cases hq : Res.mapM' Name.fromStr ps with
    | ok l => rw [hq] at h; simp at h
    | panic => rw [hq] at h; simp at h
    | err e => rw [hq] at h; simp at h; subst h; exact hname ps hq
  · intro h
    cases hr : parseCollapsed (s.length + 1) s false [] [] with
    | ok q => exact absurd ⟨q.1, (parse_ok_iff s q.1).1 ⟨q.2, hr⟩⟩ h
    | err e => rw [herr _ _ _ _ _ _ hr]; rfl
    | panic => exact absurd hr hnp

/-- The set contains a name exactly when the text denotes it. -/
theorem C06_contains (s : Str) (r : ISet Name) (ps : List Str) (h : expandNames s = .ok r)
    (hd : Denotes (noBlank s) ps) (n : Name) :
    ISet.contains r n = true ↔ ∃ p ∈ ps, upper p = upper n.raw := by
  obtain ⟨ps', ns, h1, h2, rfl⟩ := (C06_expand_iff s r).1 h
  obtain rfl := C06_denotes_unique _ _ _ h1 hd
  rw [ISet.contains_collect]
  have hk : ∀ x : Name, key x = key n ↔ upper x.raw = upper n.raw := by
    intro x; rw [Name.key_eq_iff, Name.keyStr_eq, Name.keyStr_eq]
  simp only [hk]
  clear h h1 hd
  induction h2 with
  | nil => simp
  | cons hpn _ ih =>
    have := Name.raw_of_fromStr hpn
    simp only [List.exists_mem_cons_iff, ih, this]

example : Denotes (noBlank c!"REQ-[foo, bar-[x, y]], SPC-z") [c!"REQ-foo", c!"REQ-bar-x", c!"REQ-bar-y", c!"SPC-z"] := by
  rw [← parse_ok_iff]
  exact ⟨[], by decide⟩
example : expandNames c!"REQ-[foo, bar-[x, y]], req-FOO" =
    .ok [Name.lit c!"REQ-foo", Name.lit c!"REQ-bar-x", Name.lit c!"REQ-bar-y"] := by decide
example : expandNames c!"REQ-[foo" = .err .invalidCollapsed := by decide
/-- Surprises that follow from the grammar: empty brackets are accepted and denote nothing, and text
may directly follow a bracket. -/
theorem C06_empty_brackets : expandNames c!"REQ-[]" = .ok [] ∧ expandNames [] = .ok [] := by decide
theorem C06_text_after_bracket : expandNames c!"REQ-[a]SPC-b" = .ok [Name.lit c!"REQ-a", Name.lit c!"SPC-b"] := by decide

end Art
