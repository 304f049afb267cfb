import Verif.Lemmas.MdRead

/-! Helper lemmas: what is lost when text has a line that is not plain text. Visible content is counted in characters other than newlines. -/

namespace Art
open Spec

/-- The number of characters other than newlines. -/
def ink (s : Str) : Nat := s.countP (fun c => c ≠ '\n')

/-- The total length of lines. -/
def tot (ls : List Str) : Nat := (ls.map List.length).sum

@[simp] theorem tot_nil : tot [] = 0 := rfl
@[simp] theorem tot_cons (l : Str) (ls : List Str) : tot (l :: ls) = l.length + tot ls := by simp [tot]
@[simp] theorem tot_append (a b : List Str) : tot (a ++ b) = tot a + tot b := by simp [tot]

theorem ink_append (a b : Str) : ink (a ++ b) = ink a + ink b := by simp [ink]
theorem ink_le_length (s : Str) : ink s ≤ s.length := List.countP_le_length
theorem ink_noNl {s : Str} (h : '\n' ∉ s) : ink s = s.length := by
  unfold ink
  rw [List.countP_eq_length]
  intro c hc
  simp only [ne_eq, decide_not, Bool.not_eq_eq_eq_not, Bool.not_true, decide_eq_false_iff_not]
  rintro rfl
  exact h hc

theorem ink_joinLines_le (ls : List Str) : ink (joinLines ls) ≤ tot ls := by
  induction ls with
  | nil => simp [ink]
  | cons a ls ih =>
    by_cases h : ls = []
    · subst h; simp; exact ink_le_length a
    · rw [joinLines_cons a h, ink_append, tot_cons]
      have := ink_le_length a
      have e : ink ('\n' :: joinLines ls) = ink (joinLines ls) := by simp [ink]
      omega

theorem ink_joinLines {ls : List Str} (h : ∀ l ∈ ls, '\n' ∉ l) : ink (joinLines ls) = tot ls := by
  induction ls with
  | nil => simp [ink]
  | cons a ls ih =>
    by_cases hl : ls = []
    · subst hl; simp; exact ink_noNl (h a (by simp))
    · rw [joinLines_cons a hl, ink_append, tot_cons, ink_noNl (h a (by simp))]
      have e : ink ('\n' :: joinLines ls) = ink (joinLines ls) := by simp [ink]
      have := ih (fun l hl => h l (by simp [hl]))
      omega

theorem ink_trimEnd_le (s : Str) : ink (trimEnd s) ≤ ink s := by
  obtain ⟨w, _, e⟩ := trimEnd_split s
  conv_rhs => rw [e]
  rw [ink_append]; omega

theorem ink_cleanText (s : Str) : ink (cleanText s) = ink (trimEnd s) := by
  unfold cleanText
  simp only
  split
  · rw [ink_append]; simp [ink]
  · rfl

/-- The ink of the text made from lines. -/
theorem ink_textOf (ls : List Str) : ink ((textOf ls).getD []) ≤ tot ls := by
  unfold textOf
  have h1 : ink (cleanText (joinLines ls)) ≤ tot ls := by
    rw [ink_cleanText]
    exact (ink_trimEnd_le _).trans (ink_joinLines_le ls)
  simp only
  split
  · simp [ink]
  · exact h1

/-! ### the parser never gains text -/

theorem insertFromParts_ok {L : Libs} {out m : IMap Name ArtifactRaw} {n : Name} {attrs : Option Str} {other : List Str}
    (h : insertFromParts L out n attrs other = .ok m) :
    ∃ d p, readAttrs L attrs = .ok (d, p) ∧ IMap.contains out n = false ∧ m = out ++ [(n, ⟨d, p, textOf other⟩)] := by
  unfold insertFromParts at h
  rw [Res.bind_eq_ok] at h
  obtain ⟨⟨d, p⟩, h1, h2⟩ := h
  simp only at h2
  split at h2
  · simp at h2
  · rename_i hc
    have hc : IMap.contains out n = false := by simpa using hc
    rw [IMap.insert_of_not_contains hc] at h2
    exact ⟨d, p, h1, hc, by cases h2; rfl⟩

/-- The rest of the run: the loop and the final step. -/
def rest (L : Libs) (pre : Str) (st : MdSt) (ls : List Str) : Res LoadErr (IMap Name ArtifactRaw) :=
  mdLoop L pre st ls >>= fun st' => mdFinish L st'

theorem rest_cons (L : Libs) (pre : Str) (st : MdSt) (l : Str) (ls : List Str) :
    rest L pre st (l :: ls) = mdStep L pre st l >>= fun st' => rest L pre st' ls := by
  unfold rest
  simp only [mdLoop]
  cases mdStep L pre st l <;> rfl

theorem rest_append (L : Libs) (pre : Str) (st : MdSt) (l ls : List Str) :
    rest L pre st (l ++ ls) = mdLoop L pre st l >>= fun st' => rest L pre st' ls := by
  unfold rest
  rw [mdLoop_append]
  cases mdLoop L pre st l <;> rfl

/-- What happened in one step outside of a block. -/
inductive OuterStep (L : Libs) (st : MdSt) (l : Str) : MdSt → Prop
  | head (n : Name) (out : IMap Name ArtifactRaw) : flush L st = .ok out → OuterStep L st l ⟨out, some n, none, [], none⟩
  | tail : EndLine l → (st.name = none ∨ st.attrs = none) → OuterStep L st l { st with attrs := some (joinLines st.other), other := [] }
  | fence : FenceLine l → (st.name = none ∨ st.attrs = none) → OuterStep L st l { st with fence := some (l, []) }
  | text : OuterStep L st l { st with other := st.other ++ [l] }

theorem checkAttrs_ok {st : MdSt} (h : checkAttrsEmpty st = .ok ()) : st.name = none ∨ st.attrs = none := by
  unfold checkAttrsEmpty at h
  split at h
  · simp at h
  · rename_i hh
    cases hn : st.name with
    | none => exact Or.inl rfl
    | some n =>
      cases ha : st.attrs with
      | none => exact Or.inr rfl
      | some a => exact absurd ha (by intro; exact hh n a hn ha)

theorem mdOuter_cases {L : Libs} {pre : Str} {st st' : MdSt} {l : Str} (h : mdOuter L pre st l = .ok st') :
    OuterStep L st l st' ∧ (NameLine L.fold pre l → ∃ n out, flush L st = .ok out ∧ st' = ⟨out, some n, none, [], none⟩) ∧
    (¬ NameLine L.fold pre l → EndLine l → (st.name = none ∨ st.attrs = none) ∧ st' = { st with attrs := some (joinLines st.other), other := [] }) ∧
    (¬ NameLine L.fold pre l → ¬ EndLine l → FenceLine l → (st.name = none ∨ st.attrs = none) ∧ st' = { st with fence := some (l, []) }) := by
  unfold mdOuter at h
  cases hfull : (nameLineRe L.fold pre).full l with
  | some c =>
    have hN : NameLine L.fold pre l := by rw [← nameLine_iff]; unfold Re.isFull; rw [hfull]; rfl
    rw [hfull] at h
    simp only at h
    cases hc : Caps.get c 1 with
    | none => rw [hc] at h; simp at h
    | some s =>
      rw [hc] at h
      simp only at h
      unfold mdNameLine at h
      have h' : (flush L st >>= fun out => match Name.fromStr s with
          | .ok n => pure ⟨out, some n, none, [], none⟩
          | .err e => .err (.name e)
          | .panic => .panic) = .ok st' := by
        rw [← h]
        unfold flush
        cases st.name <;> rfl
      rw [Res.bind_eq_ok] at h'
      obtain ⟨out, h1, h2⟩ := h'
      cases hs : Name.fromStr s with
      | ok n =>
        rw [hs] at h2
        simp only at h2
        cases h2
        exact ⟨.head n out h1, fun _ => ⟨n, out, h1, rfl⟩, fun hn => absurd hN hn, fun hn => absurd hN hn⟩
      | err e => rw [hs] at h2; simp at h2
      | panic => rw [hs] at h2; simp at h2
  | none =>
    have hN : ¬ NameLine L.fold pre l := by rw [← nameLine_iff]; unfold Re.isFull; rw [hfull]; simp
    rw [hfull] at h
    simp only at h
    split at h
    · rename_i he
      rw [Res.bind_eq_ok] at h
      obtain ⟨_, h1, h2⟩ := h
      cases h2
      have hE := endLine_iff.1 he
      have hc := checkAttrs_ok h1
      exact ⟨.tail hE hc, fun hn => absurd hn hN, fun _ _ => ⟨hc, rfl⟩, fun _ hn => absurd hE hn⟩
    · rename_i he
      have hE : ¬ EndLine l := fun hx => he (endLine_iff.2 hx)
      split at h
      · rename_i hf
        rw [Res.bind_eq_ok] at h
        obtain ⟨_, h1, h2⟩ := h
        cases h2
        have hc := checkAttrs_ok h1
        exact ⟨.fence (fenceLine_iff.1 hf) hc, fun hn => absurd hn hN, fun _ he => absurd he hE, fun _ _ _ => ⟨hc, rfl⟩⟩
      · rename_i hf
        cases h
        exact ⟨.text, fun hn => absurd hn hN, fun _ he => absurd he hE, fun _ _ hx => absurd (fenceLine_iff.2 hx) hf⟩

theorem mdStep_fence {L : Libs} {pre : Str} {st : MdSt} {o : Str} {acc : List Str} (hf : st.fence = some (o, acc)) (l : Str) :
    mdStep L pre st l = .ok (if codeEndRe.isFull l then { st with attrs := some (joinLines acc), fence := none }
      else { st with fence := some (o, acc ++ [l]) }) := by
  unfold mdStep
  rw [hf]
  simp only
  split <;> rfl

theorem mdStep_outer {L : Libs} {pre : Str} {st : MdSt} (hf : st.fence = none) (l : Str) : mdStep L pre st l = mdOuter L pre st l := by
  unfold mdStep; rw [hf]

/-- Number of artifacts found so far, the one being read included. -/
def found (st : MdSt) : Nat := st.out.length + (if st.name.isSome then 1 else 0)

theorem flush_length {L : Libs} {st : MdSt} {out : IMap Name ArtifactRaw} (h : flush L st = .ok out) : out.length = found st := by
  unfold flush at h
  unfold found
  cases hn : st.name with
  | none => rw [hn] at h; cases h; simp
  | some n =>
    rw [hn] at h
    obtain ⟨d, p, _, _, rfl⟩ := insertFromParts_ok h
    simp

theorem mdFinish_length {L : Libs} {st : MdSt} {m : IMap Name ArtifactRaw} (h : mdFinish L st = .ok m) : m.length = found st := by
  have : flush L (mdClose st) = .ok m := h
  rw [flush_length this]
  unfold mdClose found
  split <;> rfl

theorem rest_length {L : Libs} {pre : Str} {ls : List Str} : ∀ {st : MdSt} {m : IMap Name ArtifactRaw}, rest L pre st ls = .ok m → found st ≤ m.length := by
  induction ls with
  | nil =>
    intro st m h
    have h : mdFinish L st = .ok m := h
    exact (mdFinish_length h).ge
  | cons l ls ih =>
    intro st m h
    rw [rest_cons, Res.bind_eq_ok] at h
    obtain ⟨st', h1, h2⟩ := h
    refine le_trans ?_ (ih h2)
    cases hf : st.fence with
    | some q =>
      rw [mdStep_fence (o := q.1) (acc := q.2) hf] at h1
      cases h1
      split <;> exact le_rfl
    | none =>
      rw [mdStep_outer hf] at h1
      cases (mdOuter_cases h1).1 with
      | head n out ho =>
        rw [← flush_length ho]
        simp [found]
      | tail _ _ => exact le_rfl
      | fence _ _ => exact le_rfl
      | text => exact le_rfl

/-- What may become text. -/
def budget (st : MdSt) : Nat := tot st.other + (match st.fence with | some (o, _) => o.length | none => 0)

theorem mdFinish_budget {L : Libs} {st : MdSt} {n : Name} {x : Name × ArtifactRaw} (hn : st.name = some n) (h : mdFinish L st = .ok [x]) :
    ink (x.2.text.getD []) ≤ budget st := by
  have h' : flush L (mdClose st) = .ok [x] := h
  unfold flush at h'
  have hn' : (mdClose st).name = some n := by unfold mdClose; split <;> exact hn
  rw [hn'] at h'
  obtain ⟨d, p, _, _, e⟩ := insertFromParts_ok h'
  have hx : x = (n, ⟨d, p, textOf (mdClose st).other⟩) := by
    have := congrArg List.getLast? e
    rw [getLast?_append_one] at this
    simpa using this
  rw [hx]
  refine (ink_textOf _).trans ?_
  unfold mdClose budget
  cases hf : st.fence with
  | none => simp
  | some q => simp

/-- The text found is part of what was there. -/
theorem rest_budget {L : Libs} {pre : Str} {ls : List Str} : ∀ {st : MdSt} {n : Name} {x : Name × ArtifactRaw}, st.name = some n →
    rest L pre st ls = .ok [x] → ink (x.2.text.getD []) ≤ budget st + tot ls := by
  induction ls with
  | nil =>
    intro st n x hn h
    have h : mdFinish L st = .ok [x] := h
    exact mdFinish_budget hn h
  | cons l ls ih =>
    intro st n x hn h
    rw [rest_cons, Res.bind_eq_ok] at h
    obtain ⟨st', h1, h2⟩ := h
    rw [tot_cons]
    cases hf : st.fence with
    | some q =>
      rw [mdStep_fence (o := q.1) (acc := q.2) hf] at h1
      cases h1
      split at h2
      · have := ih (st := { st with attrs := some (joinLines q.2), fence := none }) hn h2
        simp only [budget, hf] at this ⊢
        omega
      · have := ih (st := { st with fence := some (q.1, q.2 ++ [l]) }) hn h2
        simp only [budget, hf] at this ⊢
        omega
    | none =>
      rw [mdStep_outer hf] at h1
      cases (mdOuter_cases h1).1 with
      | head n' out ho =>
        exfalso
        have h3 := rest_length h2
        have h4 := flush_length ho
        simp only [found, hn, Option.isSome_some, if_true, List.length_singleton] at h3 h4
        omega
      | tail _ _ =>
        have := ih (st := { st with attrs := some (joinLines st.other), other := [] }) hn h2
        simp only [budget, hf, tot_nil] at this ⊢
        omega
      | fence _ _ =>
        have := ih (st := { st with fence := some (l, []) }) hn h2
        simp only [budget, hf] at this ⊢
        omega
      | text =>
        have := ih (st := { st with other := st.other ++ [l] }) hn h2
        simp only [budget, hf, tot_append, tot_cons, tot_nil] at this ⊢
        omega

/-- Inside a block, something is lost. -/
theorem rest_fence_lt {L : Libs} {pre : Str} {ls : List Str} : ∀ {st : MdSt} {n : Name} {x : Name × ArtifactRaw} {o : Str} {acc : List Str},
    st.name = some n → st.fence = some (o, acc) → o ≠ [] → (∃ l, ls.getLast? = some l ∧ l ≠ []) → rest L pre st ls = .ok [x] →
    ink (x.2.text.getD []) < budget st + tot ls := by
  induction ls with
  | nil => intro st n x o acc _ _ _ ⟨l, h, _⟩; simp at h
  | cons l ls ih =>
    intro st n x o acc hn hf ho hlast h
    rw [rest_cons, mdStep_fence hf] at h
    rw [tot_cons]
    have h : rest L pre _ ls = .ok [x] := h
    have hopos : 0 < o.length := List.length_pos_iff.2 ho
    split at h
    · have := rest_budget (st := { st with attrs := some (joinLines acc), fence := none }) hn h
      simp only [budget, hf] at this ⊢
      omega
    · by_cases hls : ls = []
      · subst hls
        obtain ⟨l', h1, h2⟩ := hlast
        simp at h1
        subst h1
        have hlpos : 0 < l.length := List.length_pos_iff.2 h2
        have := rest_budget (st := { st with fence := some (o, acc ++ [l]) }) hn h
        simp only [budget, hf, tot_nil] at this ⊢
        omega
      · have := ih (st := { st with fence := some (o, acc ++ [l]) }) hn rfl ho (by rwa [List.getLast?_cons_of_ne_nil hls] at hlast) h
        simp only [budget, hf] at this ⊢
        omega

theorem endLine_ne {l : Str} (h : EndLine l) : l ≠ [] := by
  obtain ⟨k, w, _, rfl⟩ := h
  simp [List.replicate_succ]

theorem fenceLine_ne {l : Str} (h : FenceLine l) : l ≠ [] := by
  obtain ⟨x, k, w, _, _, rfl⟩ := h
  simp

/-- If nothing is lost, all lines are plain text, except that the last one may open a block when there were no attributes before. -/
theorem rest_exact {L : Libs} {pre : Str} {ls : List Str} : ∀ {st : MdSt} {n : Name} {x : Name × ArtifactRaw}, st.name = some n → st.fence = none →
    (∃ l, ls.getLast? = some l ∧ l ≠ []) → rest L pre st ls = .ok [x] → ink (x.2.text.getD []) = tot st.other + tot ls →
    ∀ init last, ls = init ++ [last] → (∀ l ∈ init, TextLine L.fold pre l) ∧
      (TextLine L.fold pre last ∨ (st.attrs = none ∧ ¬ NameLine L.fold pre last ∧ FenceLine last)) := by
  induction ls with
  | nil => intro st n x _ _ ⟨l, h, _⟩; simp at h
  | cons l ls ih =>
    intro st n x hn hf hlast h hink init last e
    have h0 := h
    rw [rest_cons, Res.bind_eq_ok, mdStep_outer hf] at h
    obtain ⟨st', h1, h2⟩ := h
    obtain ⟨hstep, c1, c2, c3⟩ := mdOuter_cases h1
    rw [tot_cons] at hink
    have hN : ¬ NameLine L.fold pre l := by
      intro hN
      obtain ⟨n', out, ho, rfl⟩ := c1 hN
      have h3 := rest_length h2
      have h4 := flush_length ho
      simp only [found, hn, Option.isSome_some, if_true, List.length_singleton] at h3 h4
      omega
    have hE : ¬ EndLine l := by
      intro hE
      obtain ⟨_, rfl⟩ := c2 hN hE
      have := rest_budget (st := { st with attrs := some (joinLines st.other), other := [] }) hn h2
      simp only [budget, hf, tot_nil] at this
      have := List.length_pos_iff.2 (endLine_ne hE)
      omega
    by_cases hF : FenceLine l
    · obtain ⟨hc, rfl⟩ := c3 hN hE hF
      have hc : st.attrs = none := by
        rcases hc with hc | hc
        · rw [hn] at hc; cases hc
        · exact hc
      by_cases hls : ls = []
      · subst hls
        obtain ⟨rfl, rfl⟩ : init = [] ∧ last = l := by
          cases init with
          | nil => simp at e; exact ⟨rfl, e.symm⟩
          | cons a init => simp at e
        exact ⟨by simp, Or.inr ⟨hc, hN, hF⟩⟩
      · exfalso
        have := rest_fence_lt (st := { st with fence := some (l, []) }) hn rfl (fenceLine_ne hF)
          (by rwa [List.getLast?_cons_of_ne_nil hls] at hlast) h2
        simp only [budget] at this
        omega
    · have hT : TextLine L.fold pre l := ⟨hN, hE, hF⟩
      have hst := mdStep_text hT hf
      rw [mdStep_outer hf, h1] at hst
      cases hst
      by_cases hls : ls = []
      · subst hls
        obtain ⟨rfl, rfl⟩ : init = [] ∧ last = l := by
          cases init with
          | nil => simp at e; exact ⟨rfl, e.symm⟩
          | cons a init => simp at e
        exact ⟨by simp, Or.inl hT⟩
      · cases init with
        | nil => simp at e; exact absurd e.2 hls
        | cons a init =>
          simp only [List.cons_append, List.cons.injEq] at e
          obtain ⟨rfl, e⟩ := e
          have := ih (st := { st with other := st.other ++ [l] }) hn hf (by rwa [List.getLast?_cons_of_ne_nil hls] at hlast) h2
            (by simp only [tot_append, tot_cons, tot_nil]; omega) init last e
          refine ⟨?_, this.2⟩
          intro y hy
          rcases List.mem_cons.1 hy with rfl | hy
          · exact hT
          · exact this.1 y hy

/-! ### line splitting never gains -/

theorem ink_cons (c : Char) (s : Str) : ink (c :: s) = (if c = '\n' then 0 else 1) + ink s := by
  unfold ink
  rw [List.countP_cons]
  by_cases h : c = '\n' <;> simp [h]
  omega

theorem tot_linesAux_le (s : Str) : ∀ acc, tot (linesAux acc s) ≤ acc.length + ink s := by
  induction s with
  | nil =>
    intro acc
    cases acc with
    | nil => simp [linesAux]
    | cons a l => rw [linesAux_end _ (by simp)]; simp
  | cons c s ih =>
    intro acc
    by_cases hc : c = '\n'
    · subst hc
      have e : ink ('\n' :: s) = ink s := by simp [ink_cons]
      rw [e]
      by_cases ha : acc.head? = some '\r'
      · obtain ⟨l, rfl⟩ : ∃ l, acc = '\r' :: l := by
          cases acc with
          | nil => simp at ha
          | cons a l => simp at ha; exact ⟨l, by rw [ha]⟩
        rw [linesAux]
        have := ih []
        simp only [tot_cons, List.length_reverse, List.length_cons, List.length_nil] at this ⊢
        omega
      · rw [linesAux_nl _ _ ha]
        have := ih []
        simp only [tot_cons, List.length_reverse, List.length_nil] at this ⊢
        omega
    · have := linesAux_line acc [c] (by simpa using fun h => hc h.symm) s
      simp only [List.cons_append, List.nil_append, List.reverse_singleton] at this
      rw [this]
      have := ih (c :: acc)
      rw [ink_cons, if_neg hc]
      simp only [List.length_cons] at this
      omega

/-- A carriage return before a newline is lost. -/
theorem tot_linesAux_crlf (x y : Str) : ∀ acc, tot (linesAux acc (x ++ '\r' :: '\n' :: y)) < acc.length + ink (x ++ '\r' :: '\n' :: y) := by
  induction x with
  | nil =>
    intro acc
    have := linesAux_line acc ['\r'] (by decide) ('\n' :: y)
    simp only [List.cons_append, List.nil_append, List.reverse_singleton] at this
    rw [List.nil_append, this, linesAux]
    have := tot_linesAux_le y []
    simp only [tot_cons, List.length_reverse, List.length_nil, ink_cons, if_true, show ('\r' = '\n') = False from by decide, if_false] at this ⊢
    omega
  | cons c x ih =>
    intro acc
    rw [List.cons_append]
    generalize hs : x ++ '\r' :: '\n' :: y = s at ih ⊢
    by_cases hc : c = '\n'
    · subst hc
      have e : ink ('\n' :: s) = ink s := by simp [ink_cons]
      rw [e]
      by_cases ha : acc.head? = some '\r'
      · obtain ⟨l, rfl⟩ : ∃ l, acc = '\r' :: l := by
          cases acc with
          | nil => simp at ha
          | cons a l => simp at ha; exact ⟨l, by rw [ha]⟩
        rw [linesAux]
        have := ih []
        simp only [tot_cons, List.length_reverse, List.length_cons, List.length_nil] at this ⊢
        omega
      · rw [linesAux_nl _ _ ha]
        have := ih []
        simp only [tot_cons, List.length_reverse, List.length_nil] at this ⊢
        omega
    · have := linesAux_line acc [c] (by simpa using fun h => hc h.symm) s
      simp only [List.cons_append, List.nil_append, List.reverse_singleton] at this
      rw [this]
      have := ih (c :: acc)
      rw [ink_cons, if_neg hc]
      simp only [List.length_cons] at this
      omega

theorem tot_lines_crlf {s : Str} (h : c!"\r\n" <:+: s) : tot (lines s) < ink s := by
  obtain ⟨x, y, rfl⟩ := h
  have := tot_linesAux_crlf x y []
  simpa [lines] using this

/-! ### one written artifact -/

/-- The attributes only. -/
abbrev noText (d : Option Str) (p : Option (ISet Name)) : ArtifactRaw := ⟨d, p, none⟩

theorem toMarkdown_one {L : Libs} {pre : Str} {d : Option Str} {p : Option (ISet Name)} (h : RawOk L pre (noText d p)) (a : MdAttrs) (n : Name)
    {t : Str} (ht : trimEnd t ≠ []) :
    toMarkdown L pre a [(n, ⟨d, p, some t⟩)] = .ok (joinLines (bodyLines L pre a n (noText d p)) ++ '\n' :: trimEnd t) := by
  have hhead : (if d.isSome || p.isSome then pushAttrs L a ([] ++ pre ++ c!"# " ++ n.raw ++ ['\n']) (noText d p)
        else pure ([] ++ pre ++ c!"# " ++ n.raw ++ ['\n']) : Res Unit Str) =
      .ok (joinLines (bodyLines L pre a n (noText d p)) ++ ['\n']) := by
    have e : bodyLines L pre a n (noText d p) = (pre ++ c!"# " ++ n.raw) ::
        (if d.isSome || p.isSome then attrChunk a (attrLines L (noText d p)) else []) := by
      unfold bodyLines; rw [rawTextLines_none rfl]; simp
    rw [e]
    split
    · rename_i hd
      rw [pushAttrs_eq h hd]
      rw [joinLines_cons _ (attrChunk_ne _ _)]
      simp
    · rw [joinLines_one]
      show Res.ok _ = _
      simp
  have hp : pushArtifact L pre a [] n ⟨d, p, some t⟩ = (if d.isSome || p.isSome then
        pushAttrs L a ([] ++ pre ++ c!"# " ++ n.raw ++ ['\n']) (noText d p) else pure ([] ++ pre ++ c!"# " ++ n.raw ++ ['\n']) : Res Unit Str) >>=
      fun out => pure (trimEnd (out ++ t) ++ c!"\n\n\n") := by
    unfold pushArtifact
    simp only
    split <;> rfl
  have : toMarkdown L pre a [(n, ⟨d, p, some t⟩)] = pushArtifact L pre a [] n ⟨d, p, some t⟩ >>= fun out => pure (trimEnd out) := by
    unfold toMarkdown pushAll pushAll
    cases pushArtifact L pre a [] n ⟨d, p, some t⟩ <;> rfl
  rw [this, hp, hhead]
  show Res.ok (trimEnd (trimEnd (joinLines _ ++ ['\n'] ++ t) ++ _)) = _
  rw [trimEnd_append_ws _ _ (by decide), trimEnd_idem, trimEnd_append _ ht]
  simp

theorem lines_prefix {ls : List Str} (hne : ls ≠ []) (h : ∀ l ∈ ls, LineOk l) (u : Str) : lines (joinLines ls ++ '\n' :: u) = ls ++ lines u := by
  induction ls with
  | nil => exact absurd rfl hne
  | cons a ls ih =>
    by_cases hls : ls = []
    · subst hls
      rw [joinLines_one, lines_cons (h a (by simp))]
      rfl
    · rw [joinLines_cons a hls, List.append_assoc, List.cons_append, lines_cons (h a (by simp)), ih hls (fun x hx => h x (by simp [hx]))]
      rfl

/-- The state after the heading and the attributes. -/
theorem mdLoop_head {L : Libs} {pre : Str} {a : MdAttrs} (hs : SettingsOk pre a) {d : Option Str} {p : Option (ISet Name)}
    (h : RawOk L pre (noText d p)) (n : Name) :
    ∃ at', mdLoop L pre ⟨[], none, none, [], none⟩ (bodyLines L pre a n (noText d p)) = .ok ⟨[], some n, at', [], none⟩ ∧
      readAttrs L at' = .ok (d, p) ∧ (at' = none ↔ d = none ∧ p = none) := by
  have hattr : ∃ at', mdLoop L pre ⟨[], some n, none, [], none⟩
        (if d.isSome || p.isSome then attrChunk a (attrLines L (noText d p)) else []) = .ok ⟨[], some n, at', [], none⟩ ∧
      readAttrs L at' = .ok (d, p) ∧ (at' = none ↔ d = none ∧ p = none) := by
    split
    · rename_i hd
      obtain ⟨hfacts, hne, _⟩ := attrLines_facts h hd
      refine ⟨some (joinLines (attrLines L (noText d p))), mdLoop_attrs hs hfacts [] n, ?_, ?_⟩
      · unfold readAttrs
        simp only [h.yaml.read hne]
        cases hp : p with
        | none => rfl
        | some q =>
          simp only [Option.map_some, namesRawDe_doc (h.partof q hp).2.1]
      · simp only [reduceCtorEq, false_iff, not_and]
        rintro rfl rfl
        simp at hd
    · rename_i hd
      simp only [Bool.or_eq_true, not_or, Bool.not_eq_true, Option.isSome_eq_false_iff, Option.isNone_iff_eq_none] at hd
      refine ⟨none, rfl, ?_, by simp [hd]⟩
      rw [hd.1, hd.2]
      rfl
  obtain ⟨at', h1, h2⟩ := hattr
  refine ⟨at', ?_, h2⟩
  have e : bodyLines L pre a n (noText d p) = [pre ++ c!"# " ++ n.raw] ++
      (if d.isSome || p.isSome then attrChunk a (attrLines L (noText d p)) else []) := by
    unfold bodyLines; rw [rawTextLines_none rfl]; simp
  rw [e, mdLoop_append]
  have e1 : mdLoop L pre ⟨[], none, none, [], none⟩ [pre ++ c!"# " ++ n.raw] = .ok ⟨[], some n, none, [], none⟩ := by
    simp only [mdLoop, mdStep_heading (st := ⟨[], none, none, [], none⟩) (m := []) rfl rfl]; rfl
  rw [e1]
  exact h1

/-- Reading is reading the lines of the text. -/
theorem fromMarkdown_one {L : Libs} {pre : Str} {a : MdAttrs} (hs : SettingsOk pre a) {d : Option Str} {p : Option (ISet Name)}
    (h : RawOk L pre (noText d p)) (n : Name) (u : Str) :
    ∃ at', readAttrs L at' = .ok (d, p) ∧ (at' = none ↔ d = none ∧ p = none) ∧
      fromMarkdown L pre (joinLines (bodyLines L pre a n (noText d p)) ++ '\n' :: u) = rest L pre ⟨[], some n, at', [], none⟩ (lines u) := by
  obtain ⟨at', h1, h2, h3⟩ := mdLoop_head (a := a) hs h n
  refine ⟨at', h2, h3, ?_⟩
  have : fromMarkdown L pre (joinLines (bodyLines L pre a n (noText d p)) ++ '\n' :: u) =
      rest L pre ⟨[], none, none, [], none⟩ (bodyLines L pre a n (noText d p) ++ lines u) := by
    rw [← lines_prefix (by simp [bodyLines]) (bodyLines_ok hs h n) u]
    rfl
  rw [this, rest_append, h1]
  rfl

theorem textOf_lines {t : Str} (hne : t ≠ []) (hcl : cleanText t = t) (h3 : joinLines (lines t) = trimEnd t) : textOf (lines t) = some t := by
  unfold textOf
  have e : cleanText (joinLines (lines t)) = t := by
    rw [h3, cleanText_congr (trimEnd_idem t), hcl]
  simp only [e]
  rw [if_neg]
  simpa using hne

theorem crlf_trimEnd {t : Str} (hcl : cleanText t = t) (htn : trimEnd t ≠ []) (h : c!"\r\n" <:+: t) : c!"\r\n" <:+: trimEnd t := by
  unfold cleanText at hcl
  simp only at hcl
  split at hcl
  · rw [← hcl, List.infix_concat_iff] at h
    rcases h with h | h
    · exfalso
      obtain ⟨x, e⟩ := h
      have e' : (x ++ ['\r']) ++ ['\n'] = trimEnd t ++ ['\n'] := by rw [← e]; simp
      have e2 := List.append_cancel_right e'
      obtain ⟨c, hc, hw⟩ := trimEnd_last' htn
      rw [← e2, getLast?_append_one] at hc
      cases hc
      revert hw; decide
    · exact h
  · rw [hcl]; exact h

end Art
