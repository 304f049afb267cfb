import Verif.Spec.Grammar
import Verif.Lemmas.MdExact

/-! Helper lemmas: reading a markdown file piece by piece. -/

namespace Art.Grammar
open Spec

variable {L : Libs} {pre : Str} {fold : Char → Char}

theorem closeLine_iff {l : Str} : codeEndRe.isFull l = true ↔ CloseLine l := codeEnd_iff

theorem HeadLine.name {l n : Str} (h : HeadLine fold pre l n) : NameLine fold pre l := by
  obtain ⟨p, w, w', h⟩ := h
  exact ⟨p, w, n, w', h⟩

theorem HeadLine.full {l n : Str} (h : HeadLine fold pre l n) : (nameLineRe fold pre).full l = some [(1, n)] := by
  obtain ⟨p, w, w', h1, h2, h3, h4, h5⟩ := h
  exact full_nameLine (p := p) (w := w) (w' := w') ⟨h1, h2, h3, h4, h5⟩

theorem full_none {l : Str} (h : ¬ NameLine fold pre l) : (nameLineRe fold pre).full l = none := by
  rw [← nameLine_iff] at h
  unfold Re.isFull at h
  simpa using h

theorem end_not_fence {l : Str} (h : EndLine l) : ¬ FenceLine l := by
  intro hf
  have h1 := attrsEnd_head (endLine_iff.2 h)
  have h2 := attrsCode_head (fenceLine_iff.2 hf)
  rw [h1] at h2
  revert h2; decide

/-- Reading one piece. -/
def pstep (L : Libs) (st : MdSt) : Mark → Res LoadErr MdSt
  | .head n => mdNameLine L st n
  | .text l => .ok { st with other := st.other ++ [l] }
  | .hashes => do
    checkAttrsEmpty st
    pure { st with attrs := some (joinLines st.other), other := [] }
  | .block a => do
    checkAttrsEmpty st
    pure { st with attrs := some (joinLines a) }
  | .cut o _ => do
    checkAttrsEmpty st
    pure { st with other := st.other ++ [o] }

def prun (L : Libs) : MdSt → List Mark → Res LoadErr MdSt
  | st, [] => .ok st
  | st, p :: ps => do
    let st' ← pstep L st p
    prun L st' ps

theorem prun_append (st : MdSt) (l l' : List Mark) : prun L st (l ++ l') = prun L st l >>= fun st' => prun L st' l' := by
  induction l generalizing st with
  | nil => rfl
  | cons a l ih =>
    simp only [List.cons_append, prun]
    cases pstep L st a with
    | ok st' => exact ih st'
    | err e => rfl
    | panic => rfl

theorem nameLine_flush (L : Libs) (st : MdSt) (s : Str) : mdNameLine L st s = (flush L st >>= fun out => match Name.fromStr s with
    | .ok n => pure ⟨out, some n, none, [], none⟩
    | .err e => .err (.name e)
    | .panic => .panic) := by
  unfold mdNameLine flush
  cases st.name <;> rfl

theorem mdNameLine_fence {st st' : MdSt} {n : Str} (h : mdNameLine L st n = .ok st') : st'.fence = none := by
  rw [nameLine_flush, Res.bind_eq_ok] at h
  obtain ⟨out, _, h⟩ := h
  cases hn : Name.fromStr n <;> rw [hn] at h <;> simp at h
  cases h; rfl

theorem finish_flush {st : MdSt} (h : st.fence = none) : mdFinish L st = flush L st := by
  have e : mdClose st = st := by unfold mdClose; rw [h]
  show (match (mdClose st).name with
    | some n => insertFromParts L (mdClose st).out n (mdClose st).attrs (mdClose st).other
    | none => .ok (mdClose st).out) = _
  rw [e]; rfl

/-- Reading the lines is reading the pieces. -/
theorem rest_cut {ls : List Str} {ps : List Mark} (h : Cut L.fold pre ls ps) :
    ∀ {st : MdSt}, st.fence = none → rest L pre st ls = prun L st ps >>= fun st' => flush L st' := by
  induction h with
  | nil => intro st hf; unfold rest; simp only [mdLoop, prun]; exact finish_flush hf
  | @head l n ls ps hl hc ih =>
    intro st hf
    rw [rest_cons, mdStep_outer hf]
    unfold mdOuter
    rw [hl.full]
    show (mdNameLine L st n >>= _) = _
    simp only [prun, pstep]
    cases hm : mdNameLine L st n with
    | ok st' => exact ih (mdNameLine_fence hm)
    | err e => rfl
    | panic => rfl
  | text hl hc ih =>
    intro st hf
    rw [rest_cons, mdStep_text hl hf]
    exact ih hf
  | hashes hn he hc ih =>
    intro st hf
    rw [rest_cons, mdStep_outer hf]
    unfold mdOuter
    rw [full_none hn]
    simp only [endLine_iff.2 he, prun, pstep, if_true]
    cases checkAttrsEmpty st with
    | ok _ => exact ih hf
    | err e => rfl
    | panic => rfl
  | @block o a e ls ps hn ho ha he hc ih =>
    intro st hf
    have hne : attrsEndRe.isFull o = false := by
      rw [← Bool.not_eq_true, endLine_iff]; exact fun h => end_not_fence h ho
    rw [rest_cons, mdStep_outer hf]
    unfold mdOuter
    rw [full_none hn]
    simp only [hne, fenceLine_iff.2 ho, prun, pstep, if_true]
    cases checkAttrsEmpty st with
    | ok _ =>
      show rest L pre { st with fence := some (o, []) } (a ++ e :: ls) = _
      rw [rest_append, mdLoop_fence (st := { st with fence := some (o, []) }) (o := o) (acc := [])
        (fun l hl => by rw [← Bool.not_eq_true, closeLine_iff]; exact ha l hl) rfl]
      show rest L pre { st with fence := some (o, [] ++ a) } (e :: ls) = _
      rw [rest_cons, mdStep_fence (st := { st with fence := some (o, [] ++ a) }) (o := o) (acc := [] ++ a) rfl, closeLine_iff.2 he]
      have := ih (st := { st with attrs := some (joinLines a), fence := none }) rfl
      rw [List.nil_append]
      have e2 : ({ st with attrs := some (joinLines a), fence := none } : MdSt) = { st with attrs := some (joinLines a) } := by
        cases st; simp only at hf; subst hf; rfl
      rw [e2] at this
      show rest L pre { st with attrs := some (joinLines a), fence := none } ls = _
      rw [e2]
      exact this
    | err e => rfl
    | panic => rfl
  | @cut o lost hn ho ha =>
    intro st hf
    have hne : attrsEndRe.isFull o = false := by
      rw [← Bool.not_eq_true, endLine_iff]; exact fun h => end_not_fence h ho
    rw [rest_cons, mdStep_outer hf]
    unfold mdOuter
    rw [full_none hn]
    simp only [hne, fenceLine_iff.2 ho, prun, pstep, if_true]
    cases checkAttrsEmpty st with
    | ok _ =>
      show rest L pre { st with fence := some (o, []) } lost = _
      unfold rest
      rw [mdLoop_fence (st := { st with fence := some (o, []) }) (o := o) (acc := [])
        (fun l hl => by rw [← Bool.not_eq_true, closeLine_iff]; exact ha l hl) rfl]
      rfl
    | err e => rfl
    | panic => rfl

/-- An open block is the last piece. -/
def CutLast : List Mark → Prop
  | [] => True
  | .cut _ _ :: ps => ps = []
  | _ :: ps => CutLast ps

theorem Cut.last {ls : List Str} {ps : List Mark} (h : Cut fold pre ls ps) : CutLast ps := by
  induction h with
  | nil => trivial
  | cut _ _ _ => rfl
  | head _ _ ih => exact ih
  | text _ _ ih => exact ih
  | hashes _ _ _ ih => exact ih
  | block _ _ _ _ _ ih => exact ih

theorem CutLast.right {l l' : List Mark} (h : CutLast (l ++ l')) : CutLast l' := by
  induction l with
  | nil => exact h
  | cons p l ih =>
    cases p with
    | cut _ _ => have : l ++ l' = [] := h; rw [(List.append_eq_nil_iff.1 this).2]; trivial
    | head _ => exact ih h
    | text _ => exact ih h
    | hashes => exact ih h
    | block _ => exact ih h

theorem CutLast.left {l l' : List Mark} (h : CutLast (l ++ l')) : CutLast l := by
  induction l with
  | nil => trivial
  | cons p l ih =>
    cases p with
    | cut _ _ => have : l ++ l' = [] := h; exact (List.append_eq_nil_iff.1 this).1
    | head _ => exact ih h
    | text _ => exact ih h
    | hashes => exact ih h
    | block _ => exact ih h

/-- A text line. -/
def IsText : Mark → Prop
  | .text _ => True
  | _ => False

theorem text_split : ∀ {T T' : List Str} {x y : Mark} {r r' : List Mark}, ¬ IsText x → ¬ IsText y →
    T.map Mark.text ++ x :: r = T'.map Mark.text ++ y :: r' → T = T' ∧ x = y ∧ r = r'
  | [], [], x, y, r, r', _, _, h => by simpa using h
  | [], t :: T', x, y, r, r', hx, _, h => by
    simp at h; rw [h.1] at hx; exact (hx trivial).elim
  | t :: T, [], x, y, r, r', _, hy, h => by
    simp at h; rw [← h.1] at hy; exact (hy trivial).elim
  | t :: T, t' :: T', x, y, r, r', hx, hy, h => by
    simp only [List.map_cons, List.cons_append, List.cons.injEq, Mark.text.injEq] at h
    obtain ⟨h1, h2, h3⟩ := text_split hx hy h.2
    exact ⟨by rw [h.1, h1], h2, h3⟩

theorem text_no_split : ∀ {T T' : List Str} {x : Mark} {r : List Mark}, ¬ IsText x → T.map Mark.text ++ x :: r ≠ T'.map Mark.text
  | [], [], x, r, _ => by simp
  | [], t :: T', x, r, hx => by
    intro h; simp at h; rw [h.1] at hx; exact hx trivial
  | t :: T, [], x, r, _ => by simp
  | t :: T, t' :: T', x, r, hx => by
    intro h
    simp only [List.map_cons, List.cons_append, List.cons.injEq] at h
    exact text_no_split hx h.2

theorem text_inj {T T' : List Str} (h : T.map Mark.text = T'.map Mark.text) : T = T' :=
  List.map_injective_iff.2 (fun _ _ e => Mark.text.inj e) h

theorem body_texts {T : List Str} {a : Option (List Str)} {t : List Str} : Body (T.map .text) a t ↔ a = none ∧ t = T := by
  constructor
  · rintro (⟨h, rfl⟩ | ⟨t', o, lost, h, _⟩ | ⟨b, h, _⟩ | ⟨t1, b, t2, h, _⟩)
    · exact ⟨rfl, (text_inj h).symm⟩
    · exact absurd h.symm (text_no_split (by intro h; exact h))
    · exact absurd h.symm (text_no_split (by intro h; exact h))
    · exact absurd h.symm (text_no_split (by intro h; exact h))
  · rintro ⟨rfl, rfl⟩; exact .inl ⟨rfl, rfl⟩

theorem body_hashes {T : List Str} {r : List Mark} {a : Option (List Str)} {t : List Str} :
    Body (T.map .text ++ .hashes :: r) a t ↔ a = some T ∧ r = t.map .text := by
  constructor
  · rintro (⟨h, rfl⟩ | ⟨t', o, lost, h, _⟩ | ⟨b, h, rfl⟩ | ⟨t1, b, t2, h, _⟩)
    · exact absurd h (text_no_split (by intro h; exact h))
    · have := (text_split (by intro h; exact h) (by intro h; exact h) h).2.1; cases this
    · obtain ⟨h1, _, h3⟩ := text_split (by intro h; exact h) (by intro h; exact h) h
      exact ⟨by rw [h1], h3⟩
    · have := (text_split (by intro h; exact h) (by intro h; exact h) h).2.1; cases this
  · rintro ⟨rfl, rfl⟩; exact .inr (.inr (.inl ⟨T, rfl, rfl⟩))

theorem body_block {T : List Str} {c : List Str} {r : List Mark} {a : Option (List Str)} {t : List Str} :
    Body (T.map .text ++ .block c :: r) a t ↔ a = some c ∧ ∃ t2, r = t2.map .text ∧ t = T ++ t2 := by
  constructor
  · rintro (⟨h, rfl⟩ | ⟨t', o, lost, h, _⟩ | ⟨b, h, _⟩ | ⟨t1, b, t2, h, rfl, rfl⟩)
    · exact absurd h (text_no_split (by intro h; exact h))
    · have := (text_split (by intro h; exact h) (by intro h; exact h) h).2.1; cases this
    · have := (text_split (by intro h; exact h) (by intro h; exact h) h).2.1; cases this
    · obtain ⟨h1, h2, h3⟩ := text_split (by intro h; exact h) (by intro h; exact h) h
      cases h2
      exact ⟨rfl, t2, h3, by rw [h1]⟩
  · rintro ⟨rfl, t2, rfl, rfl⟩; exact .inr (.inr (.inr ⟨T, c, t2, rfl, rfl, rfl⟩))

theorem body_cut {T : List Str} {o : Str} {lost : List Str} {a : Option (List Str)} {t : List Str} :
    Body (T.map .text ++ [.cut o lost]) a t ↔ a = none ∧ t = T ++ [o] := by
  constructor
  · rintro (⟨h, rfl⟩ | ⟨t', o', lost', h, rfl, rfl⟩ | ⟨b, h, _⟩ | ⟨t1, b, t2, h, _⟩)
    · exact absurd h (text_no_split (by intro h; exact h))
    · obtain ⟨h1, h2, _⟩ := text_split (by intro h; exact h) (by intro h; exact h) h
      cases h2
      exact ⟨rfl, by rw [h1]⟩
    · have := (text_split (by intro h; exact h) (by intro h; exact h) h).2.1; cases this
    · have := (text_split (by intro h; exact h) (by intro h; exact h) h).2.1; cases this
  · rintro ⟨rfl, rfl⟩; exact .inr (.inl ⟨T, o, lost, rfl, rfl, rfl⟩)

/-- With the attributes found there may only be text. -/
theorem prun_after {out : IMap Name ArtifactRaw} {n : Name} {A : Str} : ∀ (body : List Mark) (T : List Str) (st' : MdSt), Headless body →
    CutLast body → (prun L ⟨out, some n, some A, T, none⟩ body = .ok st' ↔
      ∃ t2, body = t2.map .text ∧ st' = ⟨out, some n, some A, T ++ t2, none⟩)
  | [], T, st', _, _ => by
    simp only [prun, Res.ok.injEq]
    constructor
    · intro h; exact ⟨[], rfl, by simp [h]⟩
    · rintro ⟨t2, h, rfl⟩
      have : t2 = [] := by simpa using h.symm
      subst this; simp
  | p :: body, T, st', hh, hc => by
    have hh' : Headless body := fun m hm => hh m (List.mem_cons_of_mem _ hm)
    cases p with
    | head m => exact absurd (by simp) (hh m)
    | text l =>
      simp only [prun, pstep]
      show prun L ⟨out, some n, some A, T ++ [l], none⟩ body = .ok st' ↔ _
      rw [prun_after body _ st' hh' hc]
      constructor
      · rintro ⟨t2, rfl, rfl⟩; exact ⟨l :: t2, rfl, by simp⟩
      · rintro ⟨t2, h, rfl⟩
        cases t2 with
        | nil => simp at h
        | cons x t2 =>
          simp only [List.map_cons, List.cons.injEq, Mark.text.injEq] at h
          obtain ⟨rfl, rfl⟩ := h
          exact ⟨t2, rfl, by simp⟩
    | hashes =>
      constructor
      · intro h; cases h
      · rintro ⟨t2, h, _⟩; cases t2 <;> simp at h
    | block a =>
      constructor
      · intro h; cases h
      · rintro ⟨t2, h, _⟩; cases t2 <;> simp at h
    | cut o lost =>
      constructor
      · intro h; cases h
      · rintro ⟨t2, h, _⟩; cases t2 <;> simp at h

/-- Reading what is below the first line of an artifact. -/
theorem prun_body {out : IMap Name ArtifactRaw} {n : Name} : ∀ (body : List Mark) (T : List Str) (st' : MdSt), Headless body →
    CutLast body → (prun L ⟨out, some n, none, T, none⟩ body = .ok st' ↔
      ∃ a t, Body (T.map .text ++ body) a t ∧ st' = ⟨out, some n, a.map joinLines, t, none⟩)
  | [], T, st', _, _ => by
    simp only [prun, Res.ok.injEq, List.append_nil, body_texts]
    constructor
    · rintro rfl; exact ⟨none, T, ⟨rfl, rfl⟩, rfl⟩
    · rintro ⟨_, _, ⟨rfl, rfl⟩, rfl⟩; rfl
  | p :: body, T, st', hh, hc => by
    have hh' : Headless body := fun m hm => hh m (List.mem_cons_of_mem _ hm)
    cases p with
    | head m => exact absurd (by simp) (hh m)
    | text l =>
      simp only [prun, pstep]
      show prun L ⟨out, some n, none, T ++ [l], none⟩ body = .ok st' ↔ _
      rw [prun_body body _ st' hh' hc]
      simp
    | hashes =>
      simp only [body_hashes]
      show prun L ⟨out, some n, some (joinLines T), [], none⟩ body = .ok st' ↔ _
      rw [prun_after body _ st' hh' hc]
      constructor
      · rintro ⟨t2, h, rfl⟩; exact ⟨some T, t2, ⟨rfl, h⟩, by simp⟩
      · rintro ⟨a, t, ⟨rfl, h⟩, rfl⟩; exact ⟨t, h, by simp⟩
    | block b =>
      simp only [body_block]
      show prun L ⟨out, some n, some (joinLines b), T, none⟩ body = .ok st' ↔ _
      rw [prun_after body _ st' hh' hc]
      constructor
      · rintro ⟨t2, h, rfl⟩; exact ⟨some b, T ++ t2, ⟨rfl, t2, h, rfl⟩, rfl⟩
      · rintro ⟨a, t, ⟨rfl, t2, h, rfl⟩, rfl⟩; exact ⟨t2, h, rfl⟩
    | cut o lost =>
      have : body = [] := hc
      subst this
      simp only [body_cut]
      show (Res.ok (⟨out, some n, none, T ++ [o], none⟩ : MdSt) : Res LoadErr MdSt) = .ok st' ↔ _
      constructor
      · intro h; cases h; exact ⟨none, T ++ [o], ⟨rfl, rfl⟩, rfl⟩
      · rintro ⟨_, _, ⟨rfl, rfl⟩, rfl⟩; rfl

/-- What is above the first artifact does not matter. -/
theorem prun_above : ∀ (above : List Mark) (A : Option Str) (T : List Str), Headless above →
    ∃ A' T', prun L ⟨[], none, A, T, none⟩ above = .ok ⟨[], none, A', T', none⟩
  | [], A, T, _ => ⟨A, T, rfl⟩
  | p :: above, A, T, hh => by
    have hh' : Headless above := fun m hm => hh m (List.mem_cons_of_mem _ hm)
    cases p with
    | head m => exact absurd (by simp) (hh m)
    | text l => exact prun_above above A _ hh'
    | hashes => exact prun_above above _ [] hh'
    | block a => exact prun_above above _ T hh'
    | cut o lost => exact prun_above above A _ hh'

theorem readAttrs_iff {a : Option (List Str)} {d : Option Str} {p : Option (ISet Name)} :
    readAttrs L (a.map joinLines) = .ok (d, p) ↔ Attributes L a d p := by
  unfold Attributes
  cases a with
  | none =>
    simp only [Option.map_none, readAttrs, Res.ok.injEq, Prod.mk.injEq]
    exact ⟨fun h => ⟨h.1.symm, h.2.symm⟩, fun h => ⟨h.1.symm, h.2.symm⟩⟩
  | some b =>
    simp only [Option.map_some, readAttrs]
    cases hy : L.yamlRead (joinLines b) with
    | none => simp
    | some x =>
      obtain ⟨d', p'⟩ := x
      cases p' with
      | none =>
        simp only [Res.ok.injEq, Prod.mk.injEq]
        constructor
        · rintro ⟨rfl, rfl⟩; exact .inl ⟨rfl, rfl⟩
        · rintro (⟨h, rfl⟩ | ⟨q', l', h, _⟩)
          · cases h; exact ⟨rfl, rfl⟩
          · cases h
      | some q =>
        simp only
        cases hq : namesRawDe q with
        | ok l =>
          simp only [Res.ok.injEq, Prod.mk.injEq]
          constructor
          · rintro ⟨rfl, rfl⟩; exact .inr ⟨q, l, rfl, hq, rfl⟩
          · rintro (⟨h, _⟩ | ⟨q', l', h, h2, rfl⟩)
            · simp at h
            · simp only [Option.some.injEq, Prod.mk.injEq] at h
              obtain ⟨rfl, rfl⟩ := h
              rw [hq] at h2
              cases h2
              exact ⟨rfl, rfl⟩
        | err e =>
          constructor
          · intro h; simp at h
          · rintro (⟨h, _⟩ | ⟨q', l', h, h2, rfl⟩)
            · simp at h
            · simp only [Option.some.injEq, Prod.mk.injEq] at h
              obtain ⟨rfl, rfl⟩ := h
              rw [hq] at h2; cases h2
        | panic =>
          constructor
          · intro h; simp at h
          · rintro (⟨h, _⟩ | ⟨q', l', h, h2, rfl⟩)
            · simp at h
            · simp only [Option.some.injEq, Prod.mk.injEq] at h
              obtain ⟨rfl, rfl⟩ := h
              rw [hq] at h2; cases h2

theorem textOf_iff {t : List Str} {x : Option Str} : x = textOf t ↔
    (cleanText (joinLines t) = [] ∧ x = none) ∨ (cleanText (joinLines t) ≠ [] ∧ x = some (cleanText (joinLines t))) := by
  unfold textOf
  by_cases h : cleanText (joinLines t) = []
  · simp [h]
  · simp [h]

theorem insertFromParts_iff {out m : IMap Name ArtifactRaw} {n : Name} {attrs : Option Str} {other : List Str} :
    insertFromParts L out n attrs other = .ok m ↔
    ∃ d p, readAttrs L attrs = .ok (d, p) ∧ IMap.contains out n = false ∧ m = out ++ [(n, ⟨d, p, textOf other⟩)] := by
  refine ⟨insertFromParts_ok, ?_⟩
  rintro ⟨d, p, h1, h2, rfl⟩
  unfold insertFromParts
  rw [h1]
  show (if IMap.contains out n then _ else _) = _
  rw [if_neg (by simp [h2]), IMap.insert_of_not_contains h2]
  rfl

/-- One section: from the first line to the next one. -/
theorem section_iff {out m : IMap Name ArtifactRaw} {n : Name} {body : List Mark} (hh : Headless body) (hc : CutLast body) :
    (prun L ⟨out, some n, none, [], none⟩ body >>= fun st' => flush L st') = .ok m ↔
    ∃ r, Says L body r ∧ IMap.contains out n = false ∧ m = out ++ [(n, r)] := by
  rw [Res.bind_eq_ok]
  constructor
  · rintro ⟨st', h1, h2⟩
    obtain ⟨a, t, hb, rfl⟩ := (prun_body body [] st' hh hc).1 h1
    obtain ⟨d, p, h3, h4, h5⟩ := insertFromParts_iff.1 (show insertFromParts L out n (a.map joinLines) t = .ok m from h2)
    exact ⟨⟨d, p, textOf t⟩, ⟨a, t, hb, readAttrs_iff.1 h3, textOf_iff.1 rfl⟩, h4, h5⟩
  · rintro ⟨r, ⟨a, t, hb, ha, ht⟩, h4, h5⟩
    refine ⟨⟨out, some n, a.map joinLines, t, none⟩, (prun_body body [] _ hh hc).2 ⟨a, t, hb, rfl⟩, ?_⟩
    show insertFromParts L out n (a.map joinLines) t = .ok m
    refine insertFromParts_iff.2 ⟨r.done, r.partof, readAttrs_iff.2 ha, h4, ?_⟩
    rw [h5, ← textOf_iff.2 ht]

theorem prun_head {st : MdSt} {s : Str} {ps : List Mark} {m : IMap Name ArtifactRaw} :
    (prun L st (.head s :: ps) >>= fun st' => flush L st') = .ok m ↔
    ∃ out n, flush L st = .ok out ∧ Name.fromStr s = .ok n ∧
      (prun L ⟨out, some n, none, [], none⟩ ps >>= fun st' => flush L st') = .ok m := by
  simp only [prun, pstep]
  rw [nameLine_flush]
  cases flush L st with
  | ok out =>
    simp only [Res.bind_ok]
    cases hn : Name.fromStr s with
    | ok n =>
      constructor
      · intro h; exact ⟨out, n, rfl, rfl, h⟩
      · rintro ⟨_, _, h1, h2, h3⟩; cases h1; cases h2; exact h3
    | err e =>
      constructor
      · intro h; cases h
      · rintro ⟨_, _, h1, h2, h3⟩; cases h2
    | panic =>
      constructor
      · intro h; cases h
      · rintro ⟨_, _, h1, h2, h3⟩; cases h2
  | err e =>
    constructor
    · intro h; cases h
    · rintro ⟨_, _, h1, h2, h3⟩; cases h1
  | panic =>
    constructor
    · intro h; cases h
    · rintro ⟨_, _, h1, h2, h3⟩; cases h1

theorem bind_assoc' {x : Res LoadErr MdSt} {f : MdSt → Res LoadErr MdSt} {g : MdSt → Res LoadErr (IMap Name ArtifactRaw)} :
    ((x >>= f) >>= g) = x >>= fun y => f y >>= g := by cases x <;> rfl

theorem marks_cons (s : Str × List Mark) (ss : Sections) : Sections.marks (s :: ss) = .head s.1 :: (s.2 ++ Sections.marks ss) := rfl

/-- All sections from one on. -/
theorem sections_iff : ∀ (ss : Sections) (out m : IMap Name ArtifactRaw) (n : Name) (body : List Mark), IMap.Nodup out → Headless body →
    (∀ s ∈ ss, Headless s.2) → CutLast (body ++ ss.marks) →
    ((prun L ⟨out, some n, none, [], none⟩ (body ++ ss.marks) >>= fun st' => flush L st') = .ok m ↔
    ∃ r more, Says L body r ∧ List.Forall₂ (fun s x => Name.fromStr s.1 = .ok x.1 ∧ Says L s.2 x.2) ss more ∧
      m = out ++ (n, r) :: more ∧ IMap.Nodup m)
  | [], out, m, n, body, hnd, hh, _, hc => by
    have e : body ++ Sections.marks [] = body := by simp [Sections.marks]
    rw [e] at hc ⊢
    rw [section_iff hh hc]
    constructor
    · rintro ⟨r, h1, h2, rfl⟩
      refine ⟨r, [], h1, .nil, rfl, ?_⟩
      rw [← IMap.insert_of_not_contains h2]
      exact IMap.nodup_insert hnd _ _
    · rintro ⟨r, more, h1, h2, rfl, h4⟩
      cases h2
      refine ⟨r, h1, ?_, rfl⟩
      rw [← Bool.not_eq_true, IMap.contains_iff]
      rintro ⟨x, hx, hk⟩
      unfold IMap.Nodup at h4
      rw [List.map_append, List.nodup_append] at h4
      exact h4.2.2 _ (List.mem_map.2 ⟨x, hx, rfl⟩) (key n) (by simp) hk
  | (s, b) :: ss, out, m, n, body, hnd, hh, hss, hc => by
    rw [prun_append, bind_assoc', Res.bind_eq_ok, marks_cons]
    have hcb : CutLast body := hc.left
    have hcr : CutLast (b ++ Sections.marks ss) := (hc.right : CutLast (.head s :: (b ++ Sections.marks ss)))
    have hhb : Headless b := hss (s, b) (by simp)
    have hss' : ∀ s ∈ ss, Headless s.2 := fun x hx => hss x (by simp [hx])
    constructor
    · rintro ⟨st, h1, h2⟩
      obtain ⟨out', n', h3, h4, h5⟩ := prun_head.1 h2
      obtain ⟨r, hr, hr2, rfl⟩ := (section_iff (L := L) (out := out) (m := out') (n := n) hh hcb).1 (Res.bind_eq_ok.2 ⟨st, h1, h3⟩)
      have hnd' : IMap.Nodup (out ++ [(n, r)]) := by
        rw [← IMap.insert_of_not_contains hr2]; exact IMap.nodup_insert hnd _ _
      obtain ⟨r2, more, g1, g2, rfl, g4⟩ := (sections_iff ss _ m n' b hnd' hhb hss' hcr).1 h5
      exact ⟨r, (n', r2) :: more, hr, .cons ⟨h4, g1⟩ g2, by simp, g4⟩
    · rintro ⟨r, more, hr, hf, rfl, hm⟩
      cases hf with
      | @cons _ x _ more hx hf =>
        obtain ⟨n', r2⟩ := x
        have hr2 : IMap.contains out n = false := by
          rw [← Bool.not_eq_true, IMap.contains_iff]
          rintro ⟨x, hx, hk⟩
          unfold IMap.Nodup at hm
          rw [List.map_append, List.nodup_append] at hm
          exact hm.2.2 _ (List.mem_map.2 ⟨x, hx, rfl⟩) (key n) (by simp) hk
        have hnd' : IMap.Nodup (out ++ [(n, r)]) := by
          rw [← IMap.insert_of_not_contains hr2]; exact IMap.nodup_insert hnd _ _
        obtain ⟨st, h1, h3⟩ := Res.bind_eq_ok.1 ((section_iff (L := L) (out := out) (m := out ++ [(n, r)]) (n := n) hh hcb).2 ⟨r, hr, hr2, rfl⟩)
        refine ⟨st, h1, prun_head.2 ⟨_, n', h3, hx.1, ?_⟩⟩
        exact (sections_iff ss _ _ n' b hnd' hhb hss' hcr).2 ⟨r2, more, hx.2, hf, by simp, hm⟩

/-- Every list of pieces is something above the first artifact and sections. -/
theorem split_heads : ∀ ps : List Mark, ∃ (above : List Mark) (ss : Sections), ps = above ++ ss.marks ∧ Headless above ∧ ∀ s ∈ ss, Headless s.2
  | [] => ⟨[], [], rfl, (fun _ h => by cases h), (fun _ h => by cases h)⟩
  | p :: ps => by
    obtain ⟨above, ss, h1, h2, h3⟩ := split_heads ps
    have other : (∀ n, p ≠ .head n) → ∃ (above : List Mark) (ss : Sections), p :: ps = above ++ ss.marks ∧ Headless above ∧ ∀ s ∈ ss, Headless s.2 :=
      fun hp => ⟨p :: above, ss, by rw [h1]; rfl, fun n hn => by
        rcases List.mem_cons.1 hn with e | hn
        · exact hp n e.symm
        · exact h2 n hn, h3⟩
    cases p with
    | head n =>
      refine ⟨[], (n, above) :: ss, by rw [marks_cons, h1]; rfl, (fun _ h => by cases h), fun s hs => ?_⟩
      rcases List.mem_cons.1 hs with rfl | hs
      · exact h2
      · exact h3 s hs
    | text l => exact other (fun _ h => by cases h)
    | hashes => exact other (fun _ h => by cases h)
    | block a => exact other (fun _ h => by cases h)
    | cut o lost => exact other (fun _ h => by cases h)

theorem headless_inj : ∀ {a a' : List Mark} {ss ss' : Sections}, Headless a → Headless a' → (∀ s ∈ ss, Headless s.2) → (∀ s ∈ ss', Headless s.2) →
    a ++ ss.marks = a' ++ ss'.marks → a = a' ∧ ss = ss'
  | [], [], [], [], _, _, _, _, _ => ⟨rfl, rfl⟩
  | [], [], [], s :: ss', _, _, _, _, h => by cases h
  | [], [], s :: ss, [], _, _, _, _, h => by cases h
  | [], [], (n, b) :: ss, (n', b') :: ss', _, _, h3, h4, h => by
    simp only [List.nil_append, marks_cons, List.cons.injEq, Mark.head.injEq] at h
    obtain ⟨rfl, h⟩ := h
    obtain ⟨rfl, rfl⟩ := headless_inj (h3 (n, b) (by simp)) (h4 (n, b') (by simp)) (fun s hs => h3 s (by simp [hs])) (fun s hs => h4 s (by simp [hs])) h
    exact ⟨rfl, rfl⟩
  | [], p :: a', ss, ss', _, h2, _, _, h => by
    cases ss with
    | nil => cases h
    | cons s ss =>
      simp only [List.nil_append, marks_cons, List.cons_append, List.cons.injEq] at h
      exact absurd (by rw [← h.1]; simp) (h2 s.1)
  | p :: a, [], ss, ss', h1, _, _, _, h => by
    cases ss' with
    | nil => cases h
    | cons s ss' =>
      simp only [List.nil_append, marks_cons, List.cons_append, List.cons.injEq] at h
      exact absurd (by rw [h.1]; simp) (h1 s.1)
  | p :: a, p' :: a', ss, ss', h1, h2, h3, h4, h => by
    simp only [List.cons_append, List.cons.injEq] at h
    obtain ⟨rfl, h⟩ := h
    obtain ⟨rfl, rfl⟩ := headless_inj (fun n hn => h1 n (by simp [hn])) (fun n hn => h2 n (by simp [hn])) h3 h4 h
    exact ⟨rfl, rfl⟩

end Art.Grammar
