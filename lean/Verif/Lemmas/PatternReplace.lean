import Verif.Lemmas.PatternTrees

namespace Art
open Spec

namespace Pat
variable {U : CharData}

/-- The groups get other numbers. -/
def mapCap (f : Nat → Nat) : Pat → Pat
  | .seq a b => .seq (mapCap f a) (mapCap f b)
  | .alt a b => .alt (mapCap f a) (mapCap f b)
  | .star g a => .star g (mapCap f a)
  | .cap n a => .cap (f n) (mapCap f a)
  | a => a

/-- The groups of a match get other numbers. -/
def renum (f : Nat → Nat) (m : Match) : Match := (m.1, m.2.1, m.2.2.map fun x => (f x.1, x.2))

theorem iter_mapCap {g : Bool} {f : Nat → Nat} {a b : Option Char → Str → List Match} (h : ∀ p s, a p s = (b p s).map (renum f)) (n : Nat) (p : Option Char) (s : Str) :
    iter g a n p s = (iter g b n p s).map (renum f) := by
  induction n generalizing p s with
  | zero => rfl
  | succ n ih =>
    have key : ((a p s).flatMap fun (m, r, c) => if m = [] then [] else (iter g a n (after p m) r).map fun (m', r', c') => (m ++ m', r', c ++ c')) =
        ((b p s).flatMap fun (m, r, c) => if m = [] then [] else (iter g b n (after p m) r).map fun (m', r', c') => (m ++ m', r', c ++ c')).map (renum f) := by
      rw [h, List.map_flatMap, List.flatMap_map]
      congr 1
      funext x
      obtain ⟨m, r, c⟩ := x
      by_cases hm : m = []
      · simp [hm, renum]
      · simp [hm, renum, ih, Function.comp_def]
    simp only [iter]
    rw [key]
    cases g <;> simp [renum]

theorem ms_mapCap (f : Nat → Nat) (a : Pat) (p : Option Char) (s : Str) : ms U (mapCap f a) p s = (ms U a p s).map (renum f) := by
  induction a generalizing p s with
  | eps => rfl
  | cls i neg l =>
    cases s with
    | nil => rfl
    | cons c s => simp only [mapCap, ms]; split <;> rfl
  | dot nl =>
    cases s with
    | nil => rfl
    | cons c s => simp only [mapCap, ms]; split <;> rfl
  | bol m => simp only [mapCap, ms]; split <;> rfl
  | eol m => simp only [mapCap, ms]; split <;> rfl
  | seq a b ha hb =>
    simp only [mapCap, ms, ha, hb]
    rw [List.map_flatMap, List.flatMap_map]
    congr 1
    funext x
    simp [renum, Function.comp_def]
  | alt a b ha hb => simp only [mapCap, ms, ha, hb, List.map_append]
  | star g a ha => exact iter_mapCap (fun p s => ha p s) _ _ _
  | cap n a ha => simp only [mapCap, ms, ha, List.map_map]; rfl

end Pat

namespace Re

theorem mem_seq {a b : Re} {s m r : Str} {c : Caps} (h : (m, r, c) ∈ ms (.seq a b) s) :
    ∃ m1 r1 c1 m2 c2, (m1, r1, c1) ∈ ms a s ∧ (m2, r, c2) ∈ ms b r1 ∧ m = m1 ++ m2 ∧ c = c1 ++ c2 := by
  simp only [ms, List.mem_flatMap, List.mem_map] at h
  obtain ⟨⟨m1, r1, c1⟩, h1, ⟨m2, r2, c2⟩, h2, e⟩ := h
  simp only [Prod.mk.injEq] at e
  obtain ⟨e1, e2, e3⟩ := e
  subst e2
  exact ⟨m1, r1, c1, m2, c2, h1, h2, e1.symm, e3.symm⟩

theorem mem_cap {a : Re} {n : Nat} {s m r : Str} {c : Caps} (ha : NoCap a) (h : (m, r, c) ∈ ms (.cap n a) s) : c = [(n, m)] := by
  simp only [ms, List.mem_map] at h
  obtain ⟨⟨m1, r1, c1⟩, h1, e⟩ := h
  have := ms_noCap ha s _ h1
  simp only at this
  subst this
  simp only [Prod.mk.injEq] at e
  rw [← e.2.2, e.1]

theorem mem_noCap {a : Re} {s m r : Str} {c : Caps} (ha : NoCap a) (h : (m, r, c) ∈ ms a s) : c = [] := ms_noCap ha s _ h

end Re

theorem noCap_plain (s : Str) : Re.NoCap (.lit s) := by
  induction s with
  | nil => trivial
  | cons c s ih => exact ⟨trivial, ih⟩

theorem textSub_caps {s m r : Str} {c : Caps} (h : (m, r, c) ∈ textSubRe.ms s) : ∃ x, c = [(1, x)] := by
  obtain ⟨_, _, c1, _, c2, h1, h2, _, rfl⟩ := Re.mem_seq h
  obtain ⟨m2, _, c3, _, c4, h3, h4, _, rfl⟩ := Re.mem_seq h2
  have e1 := Re.mem_noCap (Re.noCap_litI _) h1
  have e2 := Re.mem_cap noCap_subRe h3
  have e3 := Re.mem_noCap (Re.noCap_litI _) h4
  subst e1 e2 e3
  exact ⟨m2, rfl⟩

theorem textRef_caps {s m r : Str} {c : Caps} (h : (m, r, c) ∈ textRefRe.ms s) : ∃ x, c = [(1, x)] ∨ ∃ y, c = [(1, x), (2, y)] := by
  obtain ⟨_, _, c1, _, c2, h1, h2, _, rfl⟩ := Re.mem_seq h
  obtain ⟨m2, r2, c3, _, c4, h3, h4, _, rfl⟩ := Re.mem_seq h2
  obtain ⟨m3, _, c5, _, c6, h5, h6, _, rfl⟩ := Re.mem_seq h4
  have e1 := Re.mem_noCap (Re.noCap_litI _) h1
  have e2 := Re.mem_cap noCap_nameRe h3
  have e3 := Re.mem_noCap (Re.noCap_litI _) h6
  subst e1 e2 e3
  have h5' : (m3, _, c5) ∈ Re.ms (.cap 2 subRe) r2 ++ Re.ms .eps r2 := h5
  rcases List.mem_append.mp h5' with h5 | h5
  · have e := Re.mem_cap noCap_subRe h5
    subst e
    exact ⟨m2, .inr ⟨m3, rfl⟩⟩
  · simp only [Re.ms, List.mem_singleton, Prod.mk.injEq] at h5
    obtain ⟨_, _, rfl⟩ := h5
    exact ⟨m2, .inl rfl⟩

theorem dot_caps {s m r : Str} {c : Caps} (h : (m, r, c) ∈ dotRe.ms s) : ∃ x y z, c = [(1, x), (2, y), (3, z)] := by
  obtain ⟨m1, _, c1, _, c2, h1, h2, _, rfl⟩ := Re.mem_seq h
  obtain ⟨m2, r2, c3, _, c4, h3, h4, _, rfl⟩ := Re.mem_seq h2
  obtain ⟨m3, _, c5, m4, c6, h5, h6, _, rfl⟩ := Re.mem_seq h4
  have e1 := Re.mem_cap (by exact ⟨Re.noCap_litI _, trivial⟩) h1
  have e2 := Re.mem_noCap (noCap_plain _) h3
  have e3 := Re.mem_cap (by exact ⟨⟨trivial, trivial⟩, noCap_plain _⟩) h5
  have e4 := Re.mem_cap (noCap_plain _) h6
  subst e1 e2 e3 e4
  exact ⟨m1, m3, m4, rfl⟩

/-- A text whose last character is not the end of a line. -/
def EndsInLine (m : Str) : Prop := ∃ c, m.getLast? = some c ∧ c ≠ '\n'

theorem EndsInLine.append {x y : Str} (h : EndsInLine y) : EndsInLine (x ++ y) := by
  obtain ⟨c, hc, hn⟩ := h
  exact ⟨c, by rw [List.getLast?_append, hc]; rfl, hn⟩

theorem lang_seq_ends {a b : Re} (h : ∀ y, Re.Lang b y → EndsInLine y) : ∀ y, Re.Lang (.seq a b) y → EndsInLine y := by
  rintro _ ⟨x, y, _, hy, rfl⟩
  exact (h y hy).append

theorem lang_close_ends : ∀ y, Re.Lang (.litI c!"]]") y → EndsInLine y := by
  intro y hy
  rw [Re.lang_litI] at hy
  match y, hy with
  | [a, b], hy =>
    refine ⟨b, rfl, ?_⟩
    rintro rfl
    simp only [List.map_cons, List.map_nil, List.cons.injEq, and_true] at hy
    exact absurd hy.2 (by decide)
  | [], hy => simp at hy
  | [_], hy => simp at hy
  | _ :: _ :: _ :: _, hy => simp at hy

theorem textSub_ends : ∀ y, Re.Lang textSubRe y → EndsInLine y := lang_seq_ends (lang_seq_ends lang_close_ends)
theorem textRef_ends : ∀ y, Re.Lang textRefRe y → EndsInLine y := lang_seq_ends (lang_seq_ends (lang_seq_ends lang_close_ends))
theorem dot_ends : ∀ y, Re.Lang dotRe y → EndsInLine y := by
  refine lang_seq_ends (lang_seq_ends (lang_seq_ends ?_))
  intro y hy
  have : y = c!"```" := Re.lang_lit.mp hy
  subst this
  exact ⟨'`', rfl, by decide⟩

theorem atEnd_atEol (s : Str) : atEnd true s = atEol s := by
  cases s with
  | nil => rfl
  | cons c s => simp [atEnd, atEol]

theorem atBol_after {p : Option Char} {m : Str} (h : EndsInLine m) : atBol true (after p m) = false := by
  obtain ⟨c, hc, hn⟩ := h
  simp [after, hc, atBol, hn]

/-- The expression of `replaceText`. -/
def replP : Pat := .alt (.cap 1 (textSubP 2)) (.alt (.cap 3 (textRefP 4 5)) (.cap 6 (.seq (.bol true) (.seq (dotP 7) (.eol true)))))

/-- The names of its groups. -/
def replNames : List (Str × Nat) := [(c!"sub", 2), (c!"name", 4), (c!"name_sub", 5), (c!"dot_pre", 7), (c!"dot", 8), (c!"dot_post", 9)]

section
variable {U : CharData} {fold : Char → Char}

theorem ms_textSub (h : CharsOk U fold) (p : Option Char) (s : Str) : (textSubP 2).ms U p s = (textSubRe.ms s).map (Pat.renum (· + 1)) := by
  have e : textSubP 2 = (textSubP 1).mapCap (· + 1) := by decide
  rw [e, Pat.ms_mapCap, Pat.ms_free (by decide), toRe_textSubP h]

theorem ms_textRef (h : CharsOk U fold) (p : Option Char) (s : Str) : (textRefP 4 5).ms U p s = (textRefRe.ms s).map (Pat.renum (· + 3)) := by
  have e : textRefP 4 5 = (textRefP 1 2).mapCap (· + 3) := by decide
  rw [e, Pat.ms_mapCap, Pat.ms_free (by decide), toRe_textRefP h]

theorem ms_dot (h : CharsOk U fold) (p : Option Char) (s : Str) : (dotP 7).ms U p s = (dotRe.ms s).map (Pat.renum (· + 6)) := by
  have e : dotP 7 = (dotP 1).mapCap (· + 6) := by decide
  rw [e, Pat.ms_mapCap, Pat.ms_free (by decide), toRe_dotP h]

theorem head?_map_filter {α β : Type} (f : α → β) (q : β → Bool) (l : List α) : ((l.map f).filter q).head? = (l.find? fun a => q (f a)).map f := by
  induction l with
  | nil => rfl
  | cons a l ih => by_cases h : q (f a) <;> simp [h, ih]

/-- What `replHere` finds, with the numbers of the groups of `replP`. -/
def asMatch : ReplMatch → Match
  | .sub m => (m.1, m.2.1, (1, m.1) :: m.2.2.map fun x => (x.1 + 1, x.2))
  | .ref m => (m.1, m.2.1, (3, m.1) :: m.2.2.map fun x => (x.1 + 3, x.2))
  | .dot m => (m.1, m.2.1, (6, m.1) :: m.2.2.map fun x => (x.1 + 6, x.2))

theorem here_replP (h : CharsOk U fold) (p : Option Char) (s : Str) : replP.here U p s = (replHere (atBol true p) s).map asMatch := by
  unfold Pat.here replP
  simp only [Pat.ms, List.head?_append, List.head?_map, ms_textSub h, ms_textRef h]
  have e3 : (List.map (fun (x : Match) => (x.1, x.2.1, (6, x.1) :: x.2.2)) (Pat.ms U (.seq (.bol true) (.seq (dotP 7) (.eol true))) p s)).head? =
      (if atBol true p then dotHere s else none).map fun m => asMatch (.dot m) := by
    rw [List.head?_map, Pat.ms_bol]
    split
    · rw [Pat.ms_eol, ms_dot h, head?_map_filter]
      unfold dotHere
      simp only [Pat.renum, atEnd_atEol, Option.map_map]
      rfl
    · rfl
  rw [List.head?_map] at e3
  simp only [Pat.ms] at e3
  unfold replHere Re.here
  cases h1 : (textSubRe.ms s).head? with
  | some m => rfl
  | none =>
    cases h2 : (textRefRe.ms s).head? with
    | some m => rfl
    | none =>
      simp only [Option.map_none, Option.none_or]
      rw [e3]
      by_cases hb : atBol true p = true <;> simp [hb, Option.map_map, Function.comp_def]

theorem replKind_asMatch {r : Rx} (hr : r.names = replNames) {bol : Bool} {s : Str} {k : ReplMatch} (hk : replHere bol s = some k) :
    replKind r (asMatch k) = some k ∧ (asMatch k).2.1 = k.rest ∧ EndsInLine (asMatch k).1 := by
  obtain ⟨pat, names⟩ := r
  subst hr
  unfold replHere at hk
  cases h1 : textSubRe.here s with
  | some m =>
    rw [h1] at hk
    cases hk
    obtain ⟨m, rest, c⟩ := m
    obtain ⟨x, rfl⟩ := textSub_caps (List.mem_of_head? h1)
    exact ⟨rfl, rfl, textSub_ends _ (Re.here_sound h1).2⟩
  | none =>
    rw [h1] at hk
    cases h2 : textRefRe.here s with
    | some m =>
      rw [h2] at hk
      cases hk
      obtain ⟨m, rest, c⟩ := m
      obtain ⟨x, rfl | ⟨y, rfl⟩⟩ := textRef_caps (List.mem_of_head? h2)
      · exact ⟨rfl, rfl, textRef_ends _ (Re.here_sound h2).2⟩
      · exact ⟨rfl, rfl, textRef_ends _ (Re.here_sound h2).2⟩
    | none =>
      rw [h2] at hk
      cases bol with
      | false => cases hk
      | true =>
        simp only [if_true, Option.map_eq_some_iff] at hk
        obtain ⟨⟨m, rest, c⟩, hm, rfl⟩ := hk
        have hmem := List.mem_of_find?_eq_some hm
        obtain ⟨x, y, z, rfl⟩ := dot_caps hmem
        exact ⟨rfl, rfl, dot_ends _ (Re.ms_sound _ _ _ _ _ hmem).2⟩

theorem replaceFrom_eq (h : CharsOk U fold) {r : Rx} (hr : r.names = replNames) (he : Pat.Eqv U r.pat replP) (f : ReplMatch → Res Unit Str) (n : Nat) (p : Option Char) (s : Str) :
    r.pat.replaceFrom U (fun m => match replKind r m with | some k => f k | none => .panic) n p s = replaceAll f n (atBol true p) s := by
  induction n generalizing p s with
  | zero => rfl
  | succ n ih =>
    simp only [Pat.replaceFrom, replaceAll]
    rw [he.here, here_replP h]
    cases hk : replHere (atBol true p) s with
    | none =>
      simp only [Option.map_none]
      cases s with
      | nil => rfl
      | cons c s =>
        simp only [ih]
        have : atBol true (some c) = (c == '\n') := by simp [atBol]
        rw [this]
    | some k =>
      obtain ⟨k1, k2, k3⟩ := replKind_asMatch hr hk
      simp only [Option.map_some]
      have : asMatch k = ((asMatch k).1, k.rest, (asMatch k).2.2) := by rw [← k2]
      rw [this] at k1 ⊢
      simp only [k1, ih, atBol_after k3]

end
end Art
