import Verif.Lemmas.ScanSrc
import Mathlib.Data.List.Infix
import Mathlib.Data.List.Induction

/-!
# Properties C08 and C09: references in text and in source code
-/

namespace Art.Spec

/-- `x` is the longest prefix of `s` with property `P`, `rest` is what follows. -/
def LongestPrefix (P : Str → Prop) (s x rest : Str) : Prop :=
  s = x ++ rest ∧ P x ∧ ∀ y z, s = y ++ z → P y → y.length ≤ x.length

/-- Strings that parse as an artifact name (or make the parser panic, see C01) as opposed to being rejected. -/
def NameLike (s : Str) : Prop := ∀ e, Name.fromStr s ≠ .err e

/-- Strings accepted as a subname. -/
def SubLike (s : Str) : Prop := SubName.fromStr s = .ok ⟨s⟩

/-- The token that starts at the front of `t`: `#NAME`, `#NAME.sub` (longest name, then longest subname), or one of the two
markers in any case. -/
inductive TokAt : Str → SrcTok → Prop
  | ref (u n rest : Str) : LongestPrefix NameLike u n rest → (∀ y z, rest = y ++ z → ¬ SubLike y) →
      TokAt ('#' :: u) (.ref n none)
  | refSub (u n rest sub rest' : Str) : LongestPrefix NameLike u n rest → LongestPrefix SubLike rest sub rest' →
      TokAt ('#' :: u) (.ref n (some sub))
  | skip (x rest : Str) : x.map foldC = c!"#art-skip" → TokAt (x ++ rest) .skip
  | done (x rest : Str) : x.map foldC = c!"#art-done" → TokAt (x ++ rest) .done

/-- The last marker among these events is a skip marker. -/
def Skipping (evs : List (Nat × SrcTok)) : Prop :=
  ∃ before i after, evs = before ++ (i, .skip) :: after ∧ ∀ e ∈ after, e.2 ≠ .done

/-- All tokens of a file with their line numbers, in order: every position of every line is tried independently. -/
def events (tok : Str → Option SrcTok) (content : Str) : List (Nat × SrcTok) :=
  (lines content).zipIdx.flatMap (fun p => (p.1.tails.filterMap tok).map (fun k => (p.2, k)))

open Classical in
/-- The references that are not in a skip region: for the i-th event look at the events before it. -/
noncomputable def reported (evs : List (Nat × SrcTok)) : List (Nat × Str × Option Str) :=
  evs.zipIdx.filterMap (fun p =>
    match p.1 with
    | (line, .ref n s) => if Skipping (evs.take p.2) then none else some (line, n, s)
    | _ => none)

end Art.Spec

namespace Art
open Spec

theorem subLike_iff {s : Str} : SubLike s ↔ Re.Lang subRe s := by
  unfold SubLike; rw [lang_subRe]; exact (C03_sub_accepted_iff s).1

theorem nameLike_iff {s : Str} : NameLike s ↔ Re.Lang nameRe s := by
  rw [← Re.isFull_iff]
  unfold NameLike
  have : (∀ e, Name.fromStr s ≠ .err e) ↔ ∀ e, InternalName.fromStr s ≠ .err e := by
    refine forall_congr' fun e => ?_
    rw [Ne, Ne, Name.fromStr_eq_err]
  rw [this]
  unfold InternalName.fromStr
  cases h : Re.isFull nameRe s with
  | false => simp
  | true =>
    simp only [Bool.not_true, Bool.false_eq_true, if_false, iff_true]
    intro e
    split
    · simp
    · split <;> try split <;> try split
      all_goals simp

/-! ## C08 -/

/-- The subnames of a text are computed without panic, are distinct, and are exactly the
bracketed subnames `[[.sub]]` occurring anywhere in the text (ignoring case); each is kept as written at some occurrence. -/
theorem C08_subnames (text : Str) : ∃ l, parseSubnames text = .ok l ∧ ISet.Nodup l ∧
    (∀ sub : SubName, (∃ x ∈ l, key x = key sub) ↔
      ∃ pre s post, text = pre ++ c!"[[" ++ s ++ c!"]]" ++ post ∧ SubLike s ∧ upper s = upper sub.raw) ∧
    (∀ x ∈ l, SubLike x.raw ∧ ∃ pre post, text = pre ++ c!"[[" ++ x.raw ++ c!"]]" ++ post) := by
  have hstep : ∀ x ∈ Re.findIter textSubRe text, ∃ sub, Caps.get x.2.2 1 = some sub ∧ Re.Lang subRe sub ∧
      ∃ pre, text = pre ++ c!"[[" ++ sub ++ c!"]]" ++ x.2.1 := by
    intro x hx
    rw [findIter_textSub] at hx
    obtain ⟨t, ht, hh⟩ := List.mem_filterMap.1 hx
    obtain ⟨pre, rfl⟩ := (List.mem_tails _ _).1 ht
    obtain ⟨sub, h1, h2, h3⟩ := here_textSub_caps hh
    exact ⟨sub, h1, h2, pre, by rw [h3]; simp⟩
  obtain ⟨l, hl⟩ : ∃ l, Res.mapM' subOfMatch (textSubRe.findIter text) = .ok l := by
    refine ⟨(textSubRe.findIter text).map (fun m => SubName.mk ((Caps.get m.2.2 1).getD [])), ?_⟩
    rw [Res.mapM'_eq_ok, List.forall₂_map_right_iff, List.forall₂_same]
    intro x hx
    obtain ⟨sub, h1, _⟩ := hstep x hx
    simp only [subOfMatch, h1, Option.getD_some]
  have hmem : ∀ s : SubName, s ∈ l ↔ ∃ x ∈ textSubRe.findIter text, Caps.get x.2.2 1 = some s.raw := by
    rw [Res.mapM'_eq_ok] at hl
    intro s
    generalize textSubRe.findIter text = L at hl
    clear hstep
    induction hl with
    | nil => simp
    | @cons a b la lb h _ ih =>
      rw [List.mem_cons, ih]
      have hb : Caps.get a.2.2 1 = some b.raw := by
        unfold subOfMatch at h
        cases hg : Caps.get a.2.2 1 with
        | none => rw [hg] at h; cases h
        | some t => rw [hg] at h; cases h; rfl
      constructor
      · rintro (rfl | ⟨x, hx, h'⟩)
        · exact ⟨a, by simp, hb⟩
        · exact ⟨x, by simp [hx], h'⟩
      · rintro ⟨x, hx, h'⟩
        rcases List.mem_cons.1 hx with rfl | hx
        · left; rw [hb] at h'; cases s; cases b; simp at h'; rw [h']
        · exact Or.inr ⟨x, hx, h'⟩
  have hocc : ∀ s : SubName, s ∈ l ↔ SubLike s.raw ∧ ∃ pre post, text = pre ++ c!"[[" ++ s.raw ++ c!"]]" ++ post := by
    intro s
    rw [hmem]
    constructor
    · rintro ⟨x, hx, h⟩
      obtain ⟨sub, h1, h2, pre, h3⟩ := hstep x hx
      rw [h] at h1
      cases h1
      exact ⟨subLike_iff.2 h2, pre, _, h3⟩
    · rintro ⟨hs, pre, post, e⟩
      rw [subLike_iff] at hs
      have hsome := here_textSub_iff.2 ⟨s.raw, post, hs, rfl⟩
      obtain ⟨x, hx⟩ := Option.isSome_iff_exists.1 hsome
      obtain ⟨sub, h1, h2, h3⟩ := here_textSub_caps hx
      have hsub : s.raw = sub := by
        have h3' : s.raw ++ ']' :: (']' :: post) = sub ++ ']' :: (']' :: x.2.1) := by simpa using h3
        exact (until_unique (sub_outside hs (by decide)) (sub_outside h2 (by decide)) h3').1
      refine ⟨x, ?_, by rw [h1, hsub]⟩
      rw [findIter_textSub]
      refine List.mem_filterMap.2 ⟨_, (List.mem_tails _ _).2 ⟨pre, ?_⟩, hx⟩
      rw [e]; simp
  refine ⟨ISet.collect l, ?_, ISet.nodup_collect l, ?_, ?_⟩
  · unfold parseSubnames; rw [hl]; rfl
  · intro sub
    rw [← ISet.contains_iff, ISet.contains_collect]
    constructor
    · rintro ⟨x, hx, hk⟩
      obtain ⟨h1, pre, post, e⟩ := (hocc x).1 hx
      exact ⟨pre, x.raw, post, e, h1, hk⟩
    · rintro ⟨pre, s, post, e, h1, hk⟩
      exact ⟨⟨s⟩, (hocc ⟨s⟩).2 ⟨h1, pre, post, e⟩, hk⟩
  · intro x hx
    have := ISet.mem_extend (m := ([] : ISet SubName)) hx
    simp at this
    exact (hocc x).1 this

example : parseSubnames c!"a [[.foo]] [.bar]] [[[.tst-x]]b[[.FOO]] [[.a.b]]" = .ok [⟨c!".foo"⟩, ⟨c!".tst-x"⟩] := by decide
example : SubLike c!".tst-x" := by unfold SubLike; decide

/-! ## C09 -/

theorem longest_of_here {re : Re} {s x r : Str} {c : Caps} {P : Str → Prop} (hP : ∀ s, P s ↔ Re.Lang re s)
    (hst : ∀ s, Re.Strict (Re.ms re s)) (h : Re.here re s = some (x, r, c)) : LongestPrefix P s x r := by
  obtain ⟨e, hl⟩ := Re.here_sound h
  exact ⟨e, (hP x).2 hl, fun y z hs hy => Re.here_longest (hst s) h hs ((hP y).1 hy)⟩

theorem here_of_longest {re : Re} {s x r : Str} {P : Str → Prop} (hP : ∀ s, P s ↔ Re.Lang re s)
    (hst : ∀ s, Re.Strict (Re.ms re s)) (h : LongestPrefix P s x r) : ∃ c, Re.here re s = some (x, r, c) := by
  obtain ⟨e, hx, hmax⟩ := h
  obtain ⟨y, hy⟩ := Option.isSome_iff_exists.1 ((Re.here_isSome re s).2 ⟨x, r, e, (hP x).1 hx⟩)
  obtain ⟨m, r', c⟩ := y
  obtain ⟨e', hl⟩ := Re.here_sound hy
  have h1 := hmax m r' e' ((hP m).2 hl)
  have h2 := Re.here_longest (hst s) hy e ((hP x).1 hx)
  have h3 : m = x := prefix_eq ⟨r', e'.symm⟩ ⟨r, e.symm⟩ (le_antisymm h1 h2)
  subst h3
  have h4 : r' = r := List.append_cancel_left (e'.symm.trans e)
  exact ⟨c, by rw [hy, h4]⟩

/-- The token at a position is as specified: longest name, then longest subname, or a marker. In particular it is unique. -/
theorem C09_token (t : Str) (k : SrcTok) : tokHere t = some k ↔ TokAt t k := by
  have htake : ∀ {x rest : Str}, x.length = 9 → (x ++ rest).take 9 = x := by
    intro x rest h; rw [← h]; simp
  have hnoref : ∀ {l : Str}, ('r' ∉ l.take 1) → ('s' ∉ l.take 1) → ('t' ∉ l.take 1) → (t.take 9).map foldC = '#' :: l →
      hashRef t = none := by
    intro l h1 h2 h3 e
    unfold hashRef
    split
    · rename_i u
      have : Re.here refRe u = none := by
        rw [here_ref]
        cases hn : Re.here nameRe u with
        | none => rfl
        | some y =>
          exfalso
          obtain ⟨n, r, c⟩ := y
          obtain ⟨eu, ln⟩ := Re.here_sound hn
          obtain ⟨p, segs, hp, _, _, en⟩ := lang_nameRe.1 ln
          have h3' := tyFold_length hp
          match p, h3' with
          | [a, b, d], _ =>
            rw [eu, en] at e
            simp only [List.cons_append, List.nil_append, List.take_succ_cons, List.map_cons, List.cons.injEq] at e
            have e2 := e.2
            rw [← e2] at h1 h2 h3
            unfold TyFold at hp
            simp only [List.map_cons, List.cons.injEq, List.map_nil] at hp
            rcases hp with hp | hp | hp <;> simp [hp.1] at h1 h2 h3
      rw [this]; rfl
    · rfl
  unfold tokHere
  rw [here_src]
  constructor
  · intro h
    obtain ⟨x, hx, hk⟩ := Option.bind_eq_some_iff.1 h
    rcases Option.or_eq_some_iff.1 hx with hx | ⟨_, hx⟩
    · unfold hashRef at hx
      split at hx
      · rename_i u _
        rw [here_ref] at hx
        cases h1 : Re.here nameRe u with
        | none => rw [h1] at hx; simp at hx
        | some y =>
          obtain ⟨n, r, c⟩ := y
          have hn := longest_of_here (fun s => nameLike_iff) strict_nameRe h1
          rw [h1] at hx
          simp only [Option.bind_some] at hx
          cases h2 : Re.here subRe r with
          | some z =>
            obtain ⟨s, r', d⟩ := z
            rw [h2] at hx
            simp at hx; subst hx
            have : k = .ref n (some s) := by
              have : srcTok ('#' :: (n ++ s), r', [(1, n), (2, s)]) = some (.ref n (some s)) := rfl
              rw [this] at hk; exact (Option.some.inj hk).symm
            subst this
            exact .refSub u n r s r' hn (longest_of_here (fun s => subLike_iff) strict_subRe h2)
          | none =>
            rw [h2] at hx
            simp at hx; subst hx
            have : k = .ref n none := by
              have : srcTok ('#' :: n, r, [(1, n)]) = some (.ref n none) := rfl
              rw [this] at hk; exact (Option.some.inj hk).symm
            subst this
            refine .ref u n r hn ?_
            rintro y z e hy
            have := (Re.here_isSome subRe r).2 ⟨y, z, e, subLike_iff.1 hy⟩
            rw [h2] at this; cases this
      · simp at hx
    · have ht : t = t.take 9 ++ t.drop 9 := (List.take_append_drop 9 t).symm
      rcases Option.or_eq_some_iff.1 hx with hx | ⟨_, hx⟩
      · split at hx
        · rename_i e
          cases hx
          have : k = .skip := by
            have : srcTok (t.take 9, t.drop 9, [(3, t.take 9)]) = some .skip := rfl
            rw [this] at hk; exact (Option.some.inj hk).symm
          subst this
          rw [ht]; exact .skip _ _ e
        · cases hx
      · split at hx
        · rename_i e
          cases hx
          have : k = .done := by
            have : srcTok (t.take 9, t.drop 9, [(4, t.take 9)]) = some .done := rfl
            rw [this] at hk; exact (Option.some.inj hk).symm
          subst this
          rw [ht]; exact .done _ _ e
        · cases hx
  · intro h
    cases h with
    | ref u n rest hn hs =>
      obtain ⟨c, h1⟩ := here_of_longest (fun s => nameLike_iff) strict_nameRe hn
      have h2 : Re.here subRe rest = none := by
        cases h2 : Re.here subRe rest with
        | none => rfl
        | some z =>
          obtain ⟨s, r', d⟩ := z
          obtain ⟨e, l⟩ := Re.here_sound h2
          exact absurd (subLike_iff.2 l) (hs s r' e)
      simp only [hashRef, here_ref, h1, Option.bind_some, h2, Option.map_some]
      rfl
    | refSub u n rest sub rest' hn hs =>
      obtain ⟨c, h1⟩ := here_of_longest (fun s => nameLike_iff) strict_nameRe hn
      obtain ⟨d, h2⟩ := here_of_longest (fun s => subLike_iff) strict_subRe hs
      simp only [hashRef, here_ref, h1, Option.bind_some, h2, Option.map_some]
      rfl
    | skip x rest e =>
      have hl : x.length = 9 := by simpa using congrArg List.length e
      have ht := htake (rest := rest) hl
      rw [hnoref (l := c!"art-skip") (by decide) (by decide) (by decide) (by rw [ht, e]), ht, if_pos e]
      rfl
    | done x rest e =>
      have hl : x.length = 9 := by simpa using congrArg List.length e
      have ht := htake (rest := rest) hl
      have hne : x.map foldC ≠ c!"#art-skip" := by rw [e]; decide
      rw [hnoref (l := c!"art-done") (by decide) (by decide) (by decide) (by rw [ht, e]), ht, if_neg hne, if_pos e]
      rfl

theorem skAfter_iff (evs : List (Nat × SrcTok)) : skAfter false evs = true ↔ Skipping evs := by
  induction evs using List.reverseRecOn with
  | nil => simp [skAfter, Skipping]
  | append_singleton l e ih =>
    obtain ⟨i, k⟩ := e
    rw [skAfter_append]
    cases k with
    | skip =>
      simp only [skAfter, true_iff]
      exact ⟨l, i, [], rfl, by simp⟩
    | done =>
      simp only [skAfter, Bool.false_eq_true, false_iff]
      rintro ⟨b, j, a, e, h⟩
      rcases List.eq_nil_or_concat a with rfl | ⟨a', x, rfl⟩
      · have := (List.append_inj' e rfl).2; simp at this
      · have e' : l ++ [(i, SrcTok.done)] = (b ++ (j, .skip) :: a') ++ [x] := by rw [e]; simp
        have := (List.append_inj' e' rfl).2
        simp at this
        exact h x (by simp) (by rw [← this])
    | ref n s =>
      simp only [skAfter]
      rw [ih]
      constructor
      · rintro ⟨b, j, a, rfl, h⟩
        refine ⟨b, j, a ++ [(i, .ref n s)], by simp, ?_⟩
        intro x hx
        rcases List.mem_append.1 hx with hx | hx
        · exact h x hx
        · simp at hx; subst hx; simp
      · rintro ⟨b, j, a, e, h⟩
        rcases List.eq_nil_or_concat a with rfl | ⟨a', x, rfl⟩
        · have := (List.append_inj' e rfl).2; simp at this
        · have e' : l ++ [(i, SrcTok.ref n s)] = (b ++ (j, .skip) :: a') ++ [x] := by rw [e]; simp
          exact ⟨b, j, a', (List.append_inj' e' rfl).1, fun y hy => h y (by simp [hy])⟩

open Classical in
theorem unskip_eq_reported (evs : List (Nat × SrcTok)) : unskip false evs = reported evs := by
  unfold reported
  suffices h : ∀ pre l, pre ++ l = evs → unskip (skAfter false pre) l = (l.zipIdx pre.length).filterMap (fun p =>
      match p.1 with
      | (line, .ref n s) => if Skipping (evs.take p.2) then none else some (line, n, s)
      | _ => none) by
    exact h [] evs rfl
  intro pre l
  induction l generalizing pre with
  | nil => intro _; rfl
  | cons e l ih =>
    intro he
    obtain ⟨i, k⟩ := e
    have ih' := ih (pre ++ [(i, k)]) (by rw [← he]; simp)
    rw [skAfter_append, List.length_append, List.length_singleton] at ih'
    have htake : evs.take pre.length = pre := by rw [← he]; simp
    rw [List.zipIdx_cons, List.filterMap_cons]
    cases k with
    | skip => exact ih'
    | done => exact ih'
    | ref n s =>
      simp only [skAfter] at ih'
      simp only [unskip, htake]
      by_cases hs : Skipping pre
      · rw [if_pos hs, if_pos ((skAfter_iff pre).2 hs)]; exact ih'
      · rw [if_neg hs, if_neg (fun h => hs ((skAfter_iff pre).1 h))]
        simp only
        rw [ih']

/-- Scanning a file: every position of every line is looked at independently (`TokAt`), references are reported in
order with the zero-based number of their line exactly when no skip region is open; the result is those references, and the
scan panics exactly when one of the reported references panics as a name. -/
theorem C09_scan : ∃ tok : Str → Option SrcTok, (∀ t k, tok t = some k ↔ TokAt t k) ∧
    ∀ file content,
      (∀ locs, parseLocations file content = .ok locs ↔
        List.Forall₂ (fun (e : Nat × Str × Option Str) (l : Loc) => l.1 = ⟨file, e.1⟩ ∧ Name.fromStr e.2.1 = .ok l.2.1 ∧
          l.2.2 = e.2.2.map SubName.mk) (reported (events tok content)) locs) ∧
      (parseLocations file content = .panic ↔ ∃ e ∈ reported (events tok content), Name.fromStr e.2.1 = .panic) ∧
      (∀ e, parseLocations file content ≠ .err e) := by
  refine ⟨tokHere, C09_token, ?_⟩
  intro file content
  have hev : eventsFrom 0 (lines content) = events tokHere content := rfl
  have hlike : ∀ e ∈ reported (events tokHere content), NameLike e.2.1 := by
    intro e he
    unfold reported at he
    obtain ⟨p, hp, hq⟩ := List.mem_filterMap.1 he
    obtain ⟨⟨line, k⟩, i⟩ := p
    cases k with
    | skip => simp at hq
    | done => simp at hq
    | ref n s =>
      simp only at hq
      split at hq
      · cases hq
      · cases hq
        have hmem : (line, SrcTok.ref n s) ∈ events tokHere content :=
          List.fst_mem_of_mem_zipIdx hp
        unfold events at hmem
        obtain ⟨q, _, hq⟩ := List.mem_flatMap.1 hmem
        obtain ⟨k, hk, e⟩ := List.mem_map.1 hq
        cases e
        obtain ⟨t, _, ht⟩ := List.mem_filterMap.1 hk
        cases (C09_token t _).1 ht with
        | ref u n rest hn _ => exact hn.2.1
        | refSub u n rest sub rest' hn _ => exact hn.2.1
  unfold parseLocations
  rw [scanLines_eq, hev, unskip_eq_reported]
  revert hlike
  generalize reported (events tokHere content) = R
  intro hlike
  refine ⟨?_, ?_, ?_⟩
  · intro locs
    rw [Res.mapM'_eq_ok]
    constructor <;> intro h <;> refine h.imp ?_
    · intro e l h
      unfold toLoc at h
      split at h
      · rename_i n hn; cases h; exact ⟨rfl, hn, rfl⟩
      · cases h
    · rintro e ⟨l1, l2, l3⟩ ⟨h1, h2, h3⟩
      simp only at h1 h2 h3
      unfold toLoc
      rw [h2, h1, h3]
  · induction R with
    | nil => simp [Res.mapM']
    | cons e R ih =>
      have ih' := ih (fun x hx => hlike x (by simp [hx]))
      simp only [Res.mapM', List.mem_cons, exists_eq_or_imp]
      rw [← ih']
      have hl := hlike e (by simp)
      unfold toLoc at *
      cases hn : Name.fromStr e.2.1 with
      | ok n =>
        simp only [Res.bind_ok, reduceCtorEq, false_or]
        generalize Res.mapM' _ R = X
        cases X <;> simp
      | err x => exact absurd hn (hl x)
      | panic => simp
  · intro er
    induction R with
    | nil => simp [Res.mapM']
    | cons e R ih =>
      have ih' := ih (fun x hx => hlike x (by simp [hx]))
      simp only [Res.mapM']
      unfold toLoc at *
      cases hn : Name.fromStr e.2.1 with
      | ok n =>
        simp only [Res.bind_ok]
        revert ih'
        generalize Res.mapM' _ R = X
        cases X <;> simp
      | err x => simp
      | panic => simp

/-- Two references on a line, one skipped, a marker on an earlier line, text glued to a reference. -/
def exSrc : Str := c!"x #SPC-a.tst-b y#req-b-\n// #ART-skip #SPC-no\n#TST-no #ART-DONE #TST-c.d"

example : (parseLocations c!"/f" exSrc).toOption.map (fun l => l.map (fun l => (l.1.line, l.2.1.raw, l.2.2.map SubName.raw))) =
    some [(0, c!"SPC-a", some c!".tst-b"), (0, c!"req-b", none), (2, c!"TST-c", some c!".d")] := by decide

example : tokHere c!"#req-b-c-. y" = some (.ref c!"req-b-c" none) := by decide
example : TokAt c!"#req-b-c-. y" (.ref c!"req-b-c" none) := (C09_token _ _).1 (by decide)

/-- The scan does panic on a file containing a reference with a long s. -/
theorem C09_panics : parseLocations c!"/f" ['#', longS, 'P', 'C', '-', 'x'] = .panic := by decide

/-- Nothing leaks from one file into another: scanning depends on nothing but the file's own content, and a file
without markers has exactly its references reported. -/
theorem C09_no_markers (evs : List (Nat × SrcTok)) (h : ∀ e ∈ evs, e.2 ≠ .skip) :
    reported evs = evs.filterMap (fun e => match e with
      | (line, .ref n s) => some (line, n, s)
      | _ => none) := by
  rw [← unskip_eq_reported]
  induction evs with
  | nil => rfl
  | cons e l ih =>
    obtain ⟨i, k⟩ := e
    have ih' := ih (fun x hx => h x (by simp [hx]))
    cases k with
    | skip => exact absurd rfl (h (i, .skip) (by simp))
    | done => simpa [unskip] using ih'
    | ref n s => simpa [unskip] using ih'

end Art
