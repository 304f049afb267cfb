import Verif.Lemmas.ExportDot
import Verif.Lemmas.Dot
import Verif.Lemmas.TextRef
import Verif.Lemmas.Written
import Verif.Props.App

/-! Helper lemmas: cutting a text into pieces, reading links, and what a project that was read is like. -/

namespace Art
open Spec Spec.Export

/-! ## what starts here -/

theorem subText_getD (s : Option Str) : subText s = s.getD [] := by cases s <;> rfl

theorem here_sub_of {s rest : Str} (h : SubLike s) : ∃ m, Re.here textSubRe (c!"[[" ++ s ++ c!"]]" ++ rest) = some m ∧
    Caps.get m.2.2 1 = some s ∧ m.2.1 = rest := by
  have hs := subLike_iff.1 h
  obtain ⟨m, hm⟩ := Option.isSome_iff_exists.1 (here_textSub_iff.2 ⟨s, rest, hs, rfl⟩)
  obtain ⟨s', g1, g2, g3⟩ := here_textSub_caps hm
  have e : s ++ ']' :: (']' :: rest) = s' ++ ']' :: (']' :: m.2.1) := by simpa using g3
  obtain ⟨rfl, e⟩ := until_unique (sub_outside hs (by decide)) (sub_outside g2 (by decide)) e
  exact ⟨m, hm, g1, by simpa using e.symm⟩

theorem here_ref_of {n rest : Str} {s : Option Str} (hn : NameLike n) (hs : ∀ y, s = some y → SubLike y) :
    ∃ m, Re.here textRefRe (c!"[[" ++ n ++ s.getD [] ++ c!"]]" ++ rest) = some m ∧ Caps.get m.2.2 1 = some n ∧ Caps.get m.2.2 2 = s ∧ m.2.1 = rest := by
  have hn' := nameLike_iff.1 hn
  have hs' : ∀ y, s = some y → Re.Lang subRe y := fun y e => subLike_iff.1 (hs y e)
  obtain ⟨m, hm⟩ := Option.isSome_iff_exists.1 (here_textRef_iff.2 ⟨n, s, rest, hn', hs', rfl⟩)
  rw [← subText_getD]
  obtain ⟨n', s', g1, g2, g3, g4, g5⟩ := here_textRef_caps hm
  have e : (n ++ subText s) ++ ']' :: (']' :: rest) = (n' ++ subText s') ++ ']' :: (']' :: m.2.1) := by simpa using g5
  obtain ⟨h1, e⟩ := until_unique (refBody_noBracket hn' hs').2 (refBody_noBracket g3 g4).2 e
  obtain ⟨rfl, rfl⟩ := ref_unique hn' g3 hs' g4 h1
  exact ⟨m, hm, g1, g2, by simpa using e.symm⟩

theorem here_sub_ref {n rest : Str} {s : Option Str} (hn : NameLike n) : Re.here textSubRe (c!"[[" ++ n ++ s.getD [] ++ c!"]]" ++ rest) = none := by
  have hn' := nameLike_iff.1 hn
  cases h : Re.here textSubRe (c!"[[" ++ n ++ s.getD [] ++ c!"]]" ++ rest) with
  | none => rfl
  | some m =>
    obtain ⟨x, _, g2, g3⟩ := here_textSub_caps h
    obtain ⟨w, rfl, _⟩ := sub_shape g2
    have hd : '.' ∉ n := name_outside hn' (by decide)
    cases n with
    | nil => exact absurd rfl (name_ne_nil hn')
    | cons c n =>
      simp at g3
      exact absurd g3.1 (fun e => hd (by simp [e]))

theorem here_sub_tick {s : Str} : Re.here textSubRe ('`' :: s) = none := by
  cases h : Re.here textSubRe ('`' :: s) with
  | none => rfl
  | some m =>
    obtain ⟨x, _, _, g3⟩ := here_textSub_caps h
    simp at g3

theorem here_ref_tick {s : Str} : Re.here textRefRe ('`' :: s) = none := by
  cases h : Re.here textRefRe ('`' :: s) with
  | none => rfl
  | some m =>
    obtain ⟨x, y, _, _, _, _, g3⟩ := here_textRef_caps h
    simp at g3

theorem mayGraph_tick {s h b r : Str} (g : MayGraph s h b r) : ∃ t, s = '`' :: t := by
  obtain ⟨rfl, ⟨d, w, rfl, _⟩, _⟩ := g
  exact ⟨_, rfl⟩

/-- A match is that of a piece. -/
def Of : Piece → ReplMatch → Prop
  | .sub s, .sub m => Caps.get m.2.2 1 = some s
  | .ref n s, .ref m => Caps.get m.2.2 1 = some n ∧ Caps.get m.2.2 2 = s
  | .graph head body, .dot m => ∃ rest, m = dotMatch head body rest
  | _, _ => False

/-- What is read first. -/
inductive First : Bool → Str → Piece → Str → Prop
  | sub {bol s rest} : SubLike s → First bol (c!"[[" ++ s ++ c!"]]" ++ rest) (.sub s) rest
  | ref {bol n s rest} : NameLike n → (∀ y, s = some y → SubLike y) → First bol (c!"[[" ++ n ++ s.getD [] ++ c!"]]" ++ rest) (.ref n s) rest
  | graph {s head body rest} : Graph s head body rest → First true s (.graph head body) rest

theorem replHere_first {bol : Bool} {s rest : Str} {x : Piece} (h : First bol s x rest) : ∃ m, replHere bol s = some m ∧ Of x m ∧ m.rest = rest := by
  cases h with
  | sub h =>
    obtain ⟨m, h1, h2, h3⟩ := here_sub_of (rest := rest) h
    refine ⟨.sub m, ?_, h2, h3⟩
    unfold replHere; rw [h1]
  | ref hn hs =>
    obtain ⟨m, h1, h2, h3, h4⟩ := here_ref_of (rest := rest) hn hs
    refine ⟨.ref m, ?_, ⟨h2, h3⟩, h4⟩
    unfold replHere; rw [h1, here_sub_ref hn]
  | graph h =>
    obtain ⟨t, rfl⟩ := mayGraph_tick h.1
    refine ⟨.dot (dotMatch _ _ rest), ?_, ⟨rest, rfl⟩, rfl⟩
    unfold replHere; rw [here_sub_tick, here_ref_tick, dotHere_graph h]; rfl

theorem replHere_some {bol : Bool} {s : Str} {m : ReplMatch} (h : replHere bol s = some m) : ∃ x, Of x m ∧ First bol s x m.rest := by
  unfold replHere at h
  split at h
  · rename_i m' hm
    cases h
    obtain ⟨x, g1, g2, g3⟩ := here_textSub_caps hm
    exact ⟨.sub x, g1, by rw [g3]; exact .sub (subLike_iff.2 g2)⟩
  · split at h
    · rename_i m' hm
      cases h
      obtain ⟨n, x, g1, g2, g3, g4, g5⟩ := here_textRef_caps hm
      refine ⟨.ref n x, ⟨g1, g2⟩, ?_⟩
      rw [g5, subText_getD]
      exact .ref (nameLike_iff.2 g3) (fun y e => subLike_iff.2 (g4 y e))
    · split at h
      · rename_i hb
        subst hb
        obtain ⟨m', hm, rfl⟩ := Option.map_eq_some_iff.1 h
        obtain ⟨head, body, rest, rfl, hg⟩ := dotHere_some hm
        exact ⟨.graph head body, ⟨rest, rfl⟩, .graph hg⟩
      · cases h

theorem replHere_none {bol : Bool} {s : Str} : replHere bol s = none ↔ NoPiece bol s := by
  constructor
  · intro h
    refine ⟨?_, ?_, ?_⟩
    · rintro x rest hx rfl
      obtain ⟨m, e, _⟩ := replHere_first (First.sub (bol := bol) (rest := rest) hx)
      rw [h] at e; cases e
    · rintro n x rest hn hx rfl
      obtain ⟨m, e, _⟩ := replHere_first (First.ref (bol := bol) (rest := rest) hn hx)
      rw [h] at e; cases e
    · rintro rfl a b r hm
      obtain ⟨t, rfl⟩ := mayGraph_tick hm
      unfold replHere at h
      rw [here_sub_tick, here_ref_tick] at h
      simp only [if_true, Option.map_eq_none_iff] at h
      exact dotHere_none.1 h _ _ _ hm
  · rintro ⟨h1, h2, h3⟩
    cases hm : replHere bol s with
    | none => rfl
    | some m =>
      obtain ⟨x, _, hf⟩ := replHere_some hm
      generalize m.rest = rest at hf
      cases hf with
      | sub h => exact absurd rfl (h1 _ _ h)
      | ref hn hs => exact absurd rfl (h2 _ _ _ hn hs)
      | graph h => exact absurd h.1 (h3 rfl _ _ _)

theorem of_unique {x y : Piece} {m : ReplMatch} (h1 : Of x m) (h2 : Of y m) : x = y := by
  cases x <;> cases y <;> cases m <;> simp only [Of] at h1 h2
  · rw [h1] at h2; rw [Option.some.inj h2]
  · obtain ⟨a, b⟩ := h1; obtain ⟨c, d⟩ := h2
    rw [a] at c; rw [b] at d; rw [Option.some.inj c, d]
  · obtain ⟨r, rfl⟩ := h1; obtain ⟨r', e⟩ := h2
    simp only [dotMatch, Prod.mk.injEq, List.cons.injEq] at e
    obtain ⟨_, _, ⟨_, rfl⟩, ⟨_, rfl⟩, _⟩ := e
    rfl

theorem first_unique {bol : Bool} {s r1 r2 : Str} {x y : Piece} (h1 : First bol s x r1) (h2 : First bol s y r2) : x = y ∧ r1 = r2 := by
  obtain ⟨m, e1, o1, rfl⟩ := replHere_first h1
  obtain ⟨m', e2, o2, rfl⟩ := replHere_first h2
  rw [e1] at e2
  cases e2
  exact ⟨of_unique o1 o2, rfl⟩

theorem first_src {bol : Bool} {s r : Str} {x : Piece} (h : First bol s x r) : s = x.src ++ r := by
  cases h with
  | sub _ => rfl
  | ref _ _ => rfl
  | graph h => exact h.1.1

theorem first_noPiece {bol : Bool} {s r : Str} {x : Piece} (h : First bol s x r) : ¬ NoPiece bol s := by
  obtain ⟨m, e, _⟩ := replHere_first h
  rw [← replHere_none, e]; simp

theorem first_length {bol : Bool} {s r : Str} {x : Piece} (h : First bol s x r) : r.length < s.length := by
  have := first_src h
  rw [this]
  cases x with
  | plain c => cases h
  | sub s => simp [Piece.src]; omega
  | ref n s => simp [Piece.src]; omega
  | graph a b => simp [Piece.src]; omega

theorem Spec.Export.Cut.first {bol : Bool} {s r : Str} {x : Piece} {ps : List Piece} (h : First bol s x r) (hc : Cut false r ps) : Cut bol s (x :: ps) := by
  cases h with
  | sub h => exact .sub h hc
  | ref hn hs => exact .ref hn hs hc
  | graph h => exact .graph h hc

theorem Spec.Export.Cut.inv {bol : Bool} {s : Str} {x : Piece} {ps : List Piece} (h : Cut bol s (x :: ps)) :
    (∃ r, First bol s x r ∧ Cut false r ps) ∨ (∃ c t, x = .plain c ∧ s = c :: t ∧ NoPiece bol s ∧ Cut (c == '\n') t ps) := by
  cases h with
  | sub h hc => exact Or.inl ⟨_, .sub h, hc⟩
  | ref hn hs hc => exact Or.inl ⟨_, .ref hn hs, hc⟩
  | graph h hc => exact Or.inl ⟨_, .graph h, hc⟩
  | plain h hc => exact Or.inr ⟨_, _, rfl, rfl, h, hc⟩

theorem first_ne_nil {bol : Bool} {r : Str} {x : Piece} : ¬ First bol [] x r := fun h => by
  have := first_length h; simp at this

theorem Spec.Export.Cut.nil_inv {bol : Bool} {s : Str} (h : Cut bol s []) : s = [] := by cases h; rfl

theorem cut_unique {bol : Bool} {s : Str} {ps qs : List Piece} (h1 : Cut bol s ps) (h2 : Cut bol s qs) : ps = qs := by
  induction ps generalizing bol s qs with
  | nil =>
    have := h1.nil_inv
    subst this
    cases qs with
    | nil => rfl
    | cons y qs =>
      rcases h2.inv with ⟨r, hf, _⟩ | ⟨c, t, _, e, _⟩
      · exact absurd hf first_ne_nil
      · cases e
  | cons x ps ih =>
    cases qs with
    | nil =>
      have := h2.nil_inv
      subst this
      rcases h1.inv with ⟨r, hf, _⟩ | ⟨c, t, _, e, _⟩
      · exact absurd hf first_ne_nil
      · cases e
    | cons y qs =>
      rcases h1.inv with ⟨r, hf, hc⟩ | ⟨c, t, rfl, rfl, hn, hc⟩ <;> rcases h2.inv with ⟨r', hf', hc'⟩ | ⟨c', t', rfl, e, hn', hc'⟩
      · obtain ⟨rfl, rfl⟩ := first_unique hf hf'
        rw [ih hc hc']
      · exact absurd hn' (first_noPiece hf)
      · exact absurd hn (first_noPiece hf')
      · cases e
        rw [ih hc hc']

theorem cut_src {bol : Bool} {s : Str} {ps : List Piece} (h : Cut bol s ps) : ps.flatMap Piece.src = s := by
  induction ps generalizing bol s with
  | nil => rw [h.nil_inv]; rfl
  | cons x ps ih =>
    rw [List.flatMap_cons]
    rcases h.inv with ⟨r, hf, hc⟩ | ⟨c, t, rfl, rfl, hn, hc⟩
    · rw [ih hc]; exact (first_src hf).symm
    · rw [ih hc]; rfl

/-! ## replacing -/

/-- What a piece is replaced by. -/
def Gives (f : ReplMatch → Res Unit Str) (x : Piece) (r : Res Unit Str) : Prop :=
  match x with
  | .plain c => r = .ok [c]
  | x => ∃ m, Of x m ∧ r = f m

/-- All results one after the other. -/
def joined : List (Res Unit Str) → Res Unit Str
  | [] => .ok []
  | r :: l => do
    let o ← r
    let t ← joined l
    pure (o ++ t)

theorem gives_of {f : ReplMatch → Res Unit Str} {x : Piece} {m : ReplMatch} (h : Of x m) : Gives f x (f m) := by
  cases x with
  | plain c => cases m <;> cases h
  | sub s => exact ⟨m, h, rfl⟩
  | ref n s => exact ⟨m, h, rfl⟩
  | graph a b => exact ⟨m, h, rfl⟩

theorem replaceAll_cut (f : ReplMatch → Res Unit Str) : ∀ (n : Nat) (bol : Bool) (s : Str), s.length ≤ n →
    ∃ ps rs, Cut bol s ps ∧ List.Forall₂ (Gives f) ps rs ∧ replaceAll f n bol s = joined rs := by
  intro n
  induction n with
  | zero =>
    intro bol s hn
    cases s with
    | nil => exact ⟨[], [], .nil, .nil, rfl⟩
    | cons c s => simp at hn
  | succ n ih =>
    intro bol s hn
    unfold replaceAll
    cases hm : replHere bol s with
    | some m =>
      obtain ⟨x, ho, hf⟩ := replHere_some hm
      obtain ⟨ps, rs, h1, h2, h3⟩ := ih false m.rest (by have := first_length hf; omega)
      exact ⟨x :: ps, f m :: rs, h1.first hf, .cons (gives_of ho) h2, by simp only [joined, h3]⟩
    | none =>
      cases s with
      | nil => exact ⟨[], [], .nil, .nil, rfl⟩
      | cons c t =>
        obtain ⟨ps, rs, h1, h2, h3⟩ := ih (c == '\n') t (by simp at hn; omega)
        refine ⟨.plain c :: ps, .ok [c] :: rs, .plain (replHere_none.1 hm) h1, .cons rfl h2, ?_⟩
        simp only [joined, h3]
        rfl

theorem joined_ok {rs : List (Res Unit Str)} {out : Str} : joined rs = .ok out ↔ ∃ os, List.Forall₂ (fun r o => r = .ok o) rs os ∧ out = os.flatten := by
  induction rs generalizing out with
  | nil =>
    simp only [joined, Res.ok.injEq]
    constructor
    · rintro rfl; exact ⟨[], .nil, rfl⟩
    · rintro ⟨os, h, rfl⟩; cases h; rfl
  | cons r rs ih =>
    constructor
    · intro h
      cases r with
      | err e => cases h
      | panic => cases h
      | ok o =>
        cases hj : joined rs with
        | err e => simp only [joined, hj] at h; cases h
        | panic => simp only [joined, hj] at h; cases h
        | ok t =>
          simp only [joined, hj] at h
          cases h
          obtain ⟨os, h1, rfl⟩ := ih.1 hj
          exact ⟨o :: os, .cons rfl h1, rfl⟩
    · rintro ⟨os, h, rfl⟩
      cases h with
      | cons h1 h2 =>
        subst h1
        simp only [joined, ih.2 ⟨_, h2, rfl⟩]
        rfl

theorem joined_panic {rs : List (Res Unit Str)} (hne : ∀ r ∈ rs, ∀ e, r ≠ .err e) : joined rs = .panic ↔ .panic ∈ rs := by
  induction rs with
  | nil => simp [joined]
  | cons r rs ih =>
    have ih := ih (fun r hr => hne r (by simp [hr]))
    cases r with
    | err e => exact absurd rfl (hne _ (by simp) e)
    | panic => exact ⟨fun _ => by simp, fun _ => rfl⟩
    | ok o =>
      rw [List.mem_cons, ← ih]
      cases hj : joined rs with
      | err e => exact ⟨fun h => (by simp only [joined, hj] at h; cases h), fun h => (by rcases h with h | h <;> cases h)⟩
      | panic => exact ⟨fun _ => Or.inr rfl, fun _ => (by simp only [joined, hj]; rfl)⟩
      | ok t => exact ⟨fun h => (by simp only [joined, hj] at h; cases h), fun h => (by rcases h with h | h <;> cases h)⟩

/-! ## no graph in a graph -/

theorem cut_graph_mem {bol : Bool} {s head body : Str} {ps : List Piece} (h : Cut bol s ps) (hm : Piece.graph head body ∈ ps) :
    ∃ pre t rest, s = pre ++ t ∧ Graph t head body rest := by
  induction ps generalizing bol s with
  | nil => cases hm
  | cons x ps ih =>
    rcases h.inv with ⟨r, hf, hc⟩ | ⟨c, t, rfl, rfl, hn, hc⟩
    · rcases List.mem_cons.1 hm with rfl | hm
      · cases hf with
        | graph hg => exact ⟨[], s, r, rfl, hg⟩
      · obtain ⟨pre, t, rest, e, hg⟩ := ih hc hm
        exact ⟨x.src ++ pre, t, rest, by rw [first_src hf, e, List.append_assoc], hg⟩
    · rcases List.mem_cons.1 hm with hm | hm
      · cases hm
      · obtain ⟨pre, t, rest, e, hg⟩ := ih hc hm
        exact ⟨c :: pre, t, rest, by rw [e]; rfl, hg⟩

theorem no_inner_graph {s head body rest : Str} (h : Graph s head body rest) {qs : List Piece} (hc : Cut true body qs) (a b : Str) : Piece.graph a b ∉ qs := by
  intro hm
  obtain ⟨pre, t, rest', e, hg⟩ := cut_graph_mem hc hm
  obtain ⟨⟨e1, ⟨d, w, ea, hd⟩, ⟨b', hb', eb⟩, hr⟩, _⟩ := hg
  obtain ⟨⟨e2, hh, ⟨b2, hb2, eb2⟩, hr2⟩, hmin⟩ := h
  rcases hr with rfl | ⟨r, rfl⟩
  · have : c!"\n" = ['`'] := by
      have h1 : body = (pre ++ a ++ c!"\n" ++ b ++ c!"``") ++ ['`'] := by rw [e, e1]; simp
      rw [eb2] at h1
      exact (List.append_inj' h1 rfl).2
    simp at this
  · have hx : MayGraph s head (pre ++ a ++ c!"\n" ++ b) ('\n' :: r ++ c!"```" ++ rest) := by
      refine ⟨by rw [e2, e, e1]; simp, hh, ⟨pre ++ a ++ c!"\n" ++ b', by simp, by rw [eb]; simp⟩, Or.inr ⟨_, rfl⟩⟩
    rcases hmin _ _ _ hx with h | ⟨_, h⟩
    · omega
    · rw [e, e1] at h
      simp at h

/-! ## clean texts -/

/-- A character of names and subnames. -/
def nmCh (c : Char) : Bool := nameCharI c || c == '-' || c == '.'

/-- A text as in names and subnames. -/
def Clean (k : Str) : Prop := ∀ c ∈ k, nmCh c = true

theorem clean_nil : Clean [] := by intro c hc; cases hc

theorem Clean.append {a b : Str} (ha : Clean a) (hb : Clean b) : Clean (a ++ b) := fun c hc => (List.mem_append.1 hc).elim (ha c) (hb c)

theorem Clean.not_mem {k : Str} (h : Clean k) {c : Char} (hc : nmCh c = false) : c ∉ k := fun hm => by rw [h c hm] at hc; cases hc

theorem Clean.plain {k : Str} (h : Clean k) : Plain k := ⟨h.not_mem (by decide), h.not_mem (by decide), h.not_mem (by decide)⟩

theorem nmCh_upperC (c : Char) (h : nmCh c = true) : nmCh (upperC c) = true := by
  unfold nmCh at h ⊢
  rw [nameCharI_upperC]
  simp only [Bool.or_eq_true, beq_iff_eq] at h ⊢
  rcases h with (h | rfl) | rfl
  · exact Or.inl (Or.inl h)
  · exact Or.inl (Or.inr (by decide))
  · exact Or.inr (by decide)

theorem Clean.upper {k : Str} (h : Clean k) : Clean (upper k) := by
  intro c hc
  obtain ⟨d, hd, rfl⟩ := List.mem_map.1 hc
  exact nmCh_upperC d (h d hd)

theorem clean_name {s : Str} (h : NameLike s) : Clean s := by
  intro c hc
  rcases name_chars (nameLike_iff.1 h) c hc with h | rfl
  · unfold nmCh; rw [h]; rfl
  · decide

theorem clean_sub {s : Str} (h : SubLike s) : Clean s := by
  intro c hc
  obtain ⟨w, rfl, _, hw⟩ := sub_shape (subLike_iff.1 h)
  rcases List.mem_cons.1 hc with rfl | hc
  · decide
  · rcases hw c hc with h | rfl
    · unfold nmCh; rw [h]; rfl
    · decide

theorem clean_getD {o : Option Str} (h : ∀ y, o = some y → SubLike y) : Clean (o.getD []) := by
  cases o with
  | none => exact clean_nil
  | some y => exact clean_sub (h y rfl)

theorem nameLike_raw (n : Name) : NameLike n.raw := fun e h => by rw [n.fromStr_raw_self] at h; cases h

theorem clean_raw (n : Name) : Clean n.raw := clean_name (nameLike_raw n)

theorem clean_key (n : Name) : Clean n.keyStr := by rw [n.keyStr_eq]; exact (clean_raw n).upper

/-! ## reading links -/

theorem isPrefixOf_append_cons {u k v s : Str} {x y : Char} (hu : Clean u) (hk : Clean k) (hx : nmCh x = false) (hy : nmCh y = false) (hxy : y ≠ x) :
    (u ++ x :: v).isPrefixOf (k ++ y :: s) = false := by
  rw [Bool.eq_false_iff]
  intro h
  obtain ⟨t, e⟩ := List.isPrefixOf_iff_prefix.1 h
  have e := congrArg (List.dropWhile nmCh) e
  rw [List.append_assoc, List.dropWhile_append_of_pos hu, List.dropWhile_append_of_pos hk, List.cons_append, List.dropWhile_cons, List.dropWhile_cons, hx, hy] at e
  simp at e
  exact hxy e.1.symm

theorem after_skip {u k v s : Str} {x y : Char} (hu : Clean u) (hk : Clean k) (hx : nmCh x = false) (hy : nmCh y = false) (hxy : y ≠ x) :
    after (u ++ x :: v) (k ++ y :: s) = after (u ++ x :: v) s := by
  induction k with
  | nil =>
    show after _ (y :: s) = _
    have := isPrefixOf_append_cons (v := v) (s := s) hu clean_nil hx hy hxy
    rw [List.nil_append] at this
    rw [after, this]
    rfl
  | cons c k ih =>
    show after _ (c :: (k ++ y :: s)) = _
    have := isPrefixOf_append_cons (v := v) (s := s) hu hk hx hy hxy
    rw [List.cons_append] at this
    rw [after, this]
    exact ih (fun d hd => hk d (by simp [hd]))

theorem till_of {q : Char} {k r : Str} (h : Clean k) (hq : nmCh q = false) : Dot.till q (k ++ q :: r) = k := till_append (h.not_mem hq)

/-- The attributes after the title of a link. -/
def hrefAttr : Option Str → Str
  | some h => c!"href=\"#" ++ h ++ c!"\""
  | none => []

theorem nameHtml_eq (name sub color : Str) (bold : Bool) (title : Str) (href : Option Str) : nameHtml name sub color bold title href =
    c!"<a style=\"" ++ (if bold then c!"font-weight: bold; " else c!"font-style: italic; ") ++ c!"color: " ++ color ++ c!"\" title=\"" ++ title ++ c!"\" " ++
      hrefAttr href ++ c!">" ++ name ++ sub ++ c!"</a>" := by cases href <;> rfl

set_option maxRecDepth 4000 in
theorem link_found {name sub t h : Str} (k : TermColor) (h1 : Clean (name ++ sub)) (h2 : Clean t) (h3 : Clean h) :
    target (nameHtml name sub (hex k) true t (some h)) = some h ∧ title (nameHtml name sub (hex k) true t (some h)) = some t ∧
    colour (nameHtml name sub (hex k) true t (some h)) = some (hex k) ∧ caption (nameHtml name sub (hex k) true t (some h)) = some (name ++ sub) := by
  have g1 : after c!" href=\"#" (t ++ '"' :: c!" href=\"#" ++ h ++ c!"\">" ++ (name ++ sub) ++ c!"</a>") = some (h ++ '"' :: (c!">" ++ (name ++ sub) ++ c!"</a>")) := by
    have := after_skip (u := []) (x := ' ') (y := '"') (v := c!"href=\"#") (s := c!" href=\"#" ++ h ++ c!"\">" ++ (name ++ sub) ++ c!"</a>") clean_nil h2 (by decide) (by decide) (by decide)
    simp [after, List.isPrefixOf] at this ⊢
    exact this
  have g2 : after c!">" (t ++ '"' :: c!" href=\"#" ++ h ++ c!"\">" ++ (name ++ sub) ++ c!"</a>") = some ((name ++ sub) ++ '<' :: c!"/a>") := by
    have e1 := after_skip (u := []) (x := '>') (y := '"') (v := []) (s := c!" href=\"#" ++ h ++ c!"\">" ++ (name ++ sub) ++ c!"</a>") clean_nil h2 (by decide) (by decide) (by decide)
    have e2 := after_skip (u := []) (x := '>') (y := '"') (v := []) (s := c!">" ++ (name ++ sub) ++ c!"</a>") clean_nil h3 (by decide) (by decide) (by decide)
    simp [after, List.isPrefixOf] at e1 e2 ⊢
    rw [e1, e2]
  have f1 := till_of (r := c!">" ++ (name ++ sub) ++ c!"</a>") h3 (q := '"') (by decide)
  have f2 := till_of (r := c!"/a>") h1 (q := '<') (by decide)
  have f3 := till_of (r := c!" href=\"#" ++ h ++ c!"\">" ++ (name ++ sub) ++ c!"</a>") h2 (q := '"') (by decide)
  rw [nameHtml_eq]
  refine ⟨?_, ?_, ?_, ?_⟩
  · unfold target
    refine Eq.trans (congrArg (Option.map _) (Eq.trans ?_ g1)) (by rw [Option.map_some, f1])
    cases k <;> simp [hex, after, List.isPrefixOf, hrefAttr]
  · unfold title
    refine Eq.trans (congrArg (Option.map _) (a₂ := some (t ++ '"' :: (c!" href=\"#" ++ h ++ c!"\">" ++ (name ++ sub) ++ c!"</a>"))) ?_) (by rw [Option.map_some, f3])
    cases k <;> simp [hex, after, List.isPrefixOf, hrefAttr]
  · cases k <;> simp [colour, hex, after, List.isPrefixOf, Dot.till]
  · unfold caption
    refine Eq.trans (congrArg (Option.map _) (Eq.trans ?_ g2)) (by rw [Option.map_some, f2])
    cases k <;> simp [hex, after, List.isPrefixOf, hrefAttr]

set_option maxRecDepth 4000 in
theorem link_missing {name sub t : Str} (h1 : Clean (name ++ sub)) (h2 : Clean t) :
    target (nameHtml name sub c!"#B10DC9" false (t ++ c!" not found") none) = none ∧
    title (nameHtml name sub c!"#B10DC9" false (t ++ c!" not found") none) = some (t ++ c!" not found") ∧
    colour (nameHtml name sub c!"#B10DC9" false (t ++ c!" not found") none) = some c!"#B10DC9" ∧
    caption (nameHtml name sub c!"#B10DC9" false (t ++ c!" not found") none) = some (name ++ sub) := by
  have a1 : after c!" href=\"#" (t ++ (c!" not found\" >" ++ ((name ++ sub) ++ c!"</a>"))) = none := by
    have p1 : ∀ k : Str, Clean k → ∀ s, after c!" href=\"#" (k ++ s) = after c!" href=\"#" s := by
      intro k hk s
      induction k with
      | nil => rfl
      | cons c k ih =>
        have hc : (' ' == c) = false := by
          rw [beq_eq_false_iff_ne]; rintro rfl
          have := hk ' ' (by simp); revert this; decide
        show after _ (c :: (k ++ s)) = _
        rw [after]
        simp [List.isPrefixOf, hc]
        exact ih (fun d hd => hk d (by simp [hd]))
    rw [p1 t h2]
    have := p1 (name ++ sub) h1 c!"</a>"
    simp [after, List.isPrefixOf] at this ⊢
    exact this
  have a2 : after c!">" (t ++ (c!" not found\" >" ++ ((name ++ sub) ++ c!"</a>"))) = some ((name ++ sub) ++ '<' :: c!"/a>") := by
    have := after_skip (u := []) (x := '>') (y := ' ') (v := []) (s := c!"not found\" >" ++ ((name ++ sub) ++ c!"</a>")) clean_nil h2 (by decide) (by decide) (by decide)
    simp [after, List.isPrefixOf] at this ⊢
    exact this
  have f2 := till_of (r := c!"/a>") h1 (q := '<') (by decide)
  have hq : '"' ∉ t ++ c!" not found" := by
    rw [List.mem_append]
    rintro (h | h)
    · exact h2.not_mem (by decide) h
    · revert h; decide
  have f3 := till_append (r := c!" >" ++ ((name ++ sub) ++ c!"</a>")) hq
  rw [nameHtml_eq]
  refine ⟨?_, ?_, ?_, ?_⟩
  · unfold target
    rw [Option.map_eq_none_iff]
    refine Eq.trans ?_ a1
    simp [after, List.isPrefixOf, hrefAttr]
  · unfold title
    refine Eq.trans (congrArg (Option.map _) (a₂ := some ((t ++ c!" not found") ++ '"' :: (c!" >" ++ ((name ++ sub) ++ c!"</a>")))) ?_) (by rw [Option.map_some, f3])
    simp [after, List.isPrefixOf, hrefAttr]
  · simp [colour, after, List.isPrefixOf, Dot.till]
  · unfold caption
    refine Eq.trans (congrArg (Option.map _) (Eq.trans ?_ a2)) (by rw [Option.map_some, f2])
    simp [after, List.isPrefixOf, hrefAttr]

/-! ## names with the same key -/

theorem words_congr {P : Char → Prop} (hP : ∀ c d, upperC c = upperC d → P c → P d) {r r' : Str} (h : Words P r) (e : upper r = upper r') : Words P r' := by
  have hall : ∀ g g' : Str, upper g = upper g' → g ≠ [] → (∀ c ∈ g, P c) → g' ≠ [] ∧ ∀ c ∈ g', P c := by
    intro g
    induction g with
    | nil => intro _ _ h _; exact absurd rfl h
    | cons c g ih =>
      intro g' e _ hc
      cases g' with
      | nil => cases e
      | cons d g' =>
        simp only [upper_cons, List.cons.injEq] at e
        refine ⟨by simp, fun x hx => ?_⟩
        rcases List.mem_cons.1 hx with rfl | hx
        · exact hP _ _ e.1 (hc c (by simp))
        · by_cases hg : g = []
          · subst hg
            cases g' with
            | nil => cases hx
            | cons _ _ => cases e.2
          · exact (ih g' e.2 hg (fun c h => hc c (by simp [h]))).2 x hx
  induction h generalizing r' with
  | one g h1 h2 => exact .one _ (hall _ _ e h1 h2).1 (hall _ _ e h1 h2).2
  | more g r h1 h2 _ ih =>
    rw [upper_append] at e
    obtain ⟨a, b, rfl, ea, eb⟩ := List.map_eq_append_iff.1 e.symm
    cases b with
    | nil => cases eb
    | cons d b =>
      simp only [List.map_cons, upper_cons, List.cons.injEq] at eb
      have hd : d = '-' := by
        have h := eb.1
        rw [char_eq, upperC_toNat, upperC_toNat] at h
        rw [char_eq]
        have : '-'.toNat = 45 := rfl
        rw [this] at h ⊢
        split_ifs at h <;> omega
      subst hd
      obtain ⟨h1', h2'⟩ := hall g a ea.symm h1 h2
      exact .more _ _ h1' h2' (ih eb.2.symm)

theorem isName_congr {s s' : Str} (h : IsName NameCharU s) (e : upper s = upper s') : IsName NameCharU s' := by
  obtain ⟨t, r, rfl, ht, hr⟩ := h
  rw [upper_append] at e
  obtain ⟨a, b, rfl, ea, eb⟩ := List.map_eq_append_iff.1 e.symm
  cases b with
  | nil => cases eb
  | cons d b =>
    simp only [List.map_cons, upper_cons, List.cons.injEq] at eb
    have hd : d = '-' := by
      have h := eb.1
      rw [char_eq, upperC_toNat, upperC_toNat] at h
      rw [char_eq]
      have : '-'.toNat = 45 := rfl
      rw [this] at h ⊢
      split_ifs at h <;> omega
    subst hd
    refine ⟨a, b, rfl, ?_, words_congr ?_ hr eb.2.symm⟩
    · rw [show upper a = upper t from ea]; exact ht
    · intro c d e h
      rw [← nameCharI_iff] at h ⊢
      rw [← nameCharI_upperC, ← e, nameCharI_upperC]; exact h

theorem name_of_key {s : Str} {n : Name} (h : n.keyStr = upper s) : ∃ m, Name.fromStr s = .ok m ∧ key m = key n := by
  have h1 := (C01_accepted_iff n.raw).1 ⟨n, n.fromStr_raw_self⟩
  rw [n.keyStr_eq] at h
  obtain ⟨m, hm⟩ := (C01_accepted_iff s).2 (isName_congr h1 h)
  refine ⟨m, hm, Name.key_eq_iff.2 ?_⟩
  rw [m.keyStr_eq, n.keyStr_eq, Name.raw_of_fromStr hm, h]

/-! ## projects -/

/-- What is known about a project that was read. -/
structure Readable (p : Project) : Prop where
  linked : Linked p
  subs : ∀ x ∈ p.artifacts, ∀ s, ISet.contains x.2.subnames s = true ↔ DefinesSub x.2.text s
  code : IMap.Nodup p.codeImpls
  secondary : ∀ x ∈ p.codeImpls, IMap.Nodup x.2.secondary
  refs : ∀ x ∈ p.artifacts, ∀ n sub, WritesRef x.2.text n sub → ∃ name, Name.fromStr n = .ok name

theorem secondary_nodup (l : List Loc) : ∀ x ∈ (joinLocations l).1, IMap.Nodup x.2.secondary := by
  intro x hx
  obtain ⟨hn, hg⟩ := joinLocations_get l
  have hx' := IMap.get?_of_mem hn hx
  rw [hg] at hx'
  obtain ⟨wf, _⟩ := join_fold l
  have hs : ∀ m, IMap.get? (l.foldl joinStep ⟨[], [], []⟩).secondary x.1 = some m → IMap.Nodup m := by
    intro m hm
    obtain ⟨n, _, hm⟩ := IMap.mem_of_get? hm
    exact (wf.e _ hm).1
  revert hx' hs
  cases IMap.get? (l.foldl joinStep ⟨[], [], []⟩).primary x.1 <;> cases IMap.get? (l.foldl joinStep ⟨[], [], []⟩).secondary x.1 <;> intro e hs
  · cases e
  · rw [← Option.some.inj e]; exact hs _ rfl
  · rw [← Option.some.inj e]; simp [IMap.Nodup]
  · rw [← Option.some.inj e]; exact hs _ rfl

theorem read_readable {L : Libs} {readToml : Str → Option SettingsRaw} {hash : ArtifactIm → HashIm} {ncpu : Nat} {fs : FS} {base : FilePath} {c : Categorized} {p : Project}
    (h : ReadsProject L readToml hash ncpu fs base (.ok (c, p))) : Readable p := by
  have hl := read_linked h
  obtain ⟨raw, path, s, r, arts, ls, _, _, ha, he, hld, hlint, rfl, _⟩ := reads_parts h
  have hm : ∀ x, x ∈ (Project.sort ⟨s, (joinLocations r.locs).1, arts⟩).artifacts → ∃ y ∈ arts, x = (y.1, y.2.sort) := by
    intro x hx
    obtain ⟨y, hy, rfl⟩ := List.mem_map.1 hx
    exact ⟨y, (mem_sortOn _).1 hy, rfl⟩
  have sp := hld.spec (joinArtifacts_input _)
  refine ⟨hl, ?_, ?_, ?_, ?_⟩
  · intro x hx t
    obtain ⟨y, hy, rfl⟩ := hm x hx
    obtain ⟨im, as⟩ := sp.2.2.2.2.2.1 y.2 (List.mem_map.2 ⟨y, hy, rfl⟩)
    show _ ↔ DefinesSub y.2.text t
    rw [as.text]
    refine Iff.trans ?_ (subs_contains as.subs t)
    rw [ISet.contains_iff, ISet.contains_iff]
    exact ⟨fun ⟨q, hq, e⟩ => ⟨q, (mem_sortOn _).1 hq, e⟩, fun ⟨q, hq, e⟩ => ⟨q, (mem_sortOn _).2 hq, e⟩⟩
  · have := (IMap.nodup_perm (sortOn_perm (fun x : Name × ImplCode => x.1.keyStr) _)).2 (joinLocations_get r.locs).1
    exact IMap.nodup_of_fst this (by show List.map _ (List.map _ _) = _; rw [List.map_map]; rfl)
  · intro x hx
    obtain ⟨y, hy, rfl⟩ := List.mem_map.1 hx
    exact (IMap.nodup_perm (sortOn_perm _ _)).2 (secondary_nodup _ y ((mem_sortOn _).1 hy))
  · intro x hx n sub hw
    obtain ⟨y, hy, rfl⟩ := hm x hx
    cases hn : Name.fromStr n with
    | ok m => exact ⟨m, rfl⟩
    | err e => exact absurd hn (hw.1 e)
    | panic =>
      have := (C40_crash_iff (L := L) ⟨s, (joinLocations r.locs).1, arts⟩).2 ⟨y, hy, n, sub, hw, hn⟩
      rw [hlint] at this; cases this

section
variable {p : Project}

theorem Readable.none (R : Readable p) (n : Name) : p.artifacts.get? n = none ↔ ∀ a ∈ arts p, key a.name ≠ key n := by
  rw [IMap.get?_eq_none]
  constructor
  · intro h a ha e
    obtain ⟨x, hx, rfl⟩ := List.mem_map.1 ha
    exact h x hx (by rw [← R.linked.names x hx]; exact e)
  · intro h x hx e
    exact h x.2 (List.mem_map.2 ⟨x, hx, rfl⟩) (by rw [R.linked.names x hx]; exact e)

theorem Readable.some (R : Readable p) (n : Name) (a : Artifact) : p.artifacts.get? n = some a ↔ a ∈ arts p ∧ key a.name = key n := by
  constructor
  · intro hg
    obtain ⟨n', hk, hm⟩ := IMap.mem_of_get? hg
    exact ⟨List.mem_map.2 ⟨_, hm, rfl⟩, by rw [R.linked.names _ hm]; exact hk⟩
  · rintro ⟨hb, hk⟩
    obtain ⟨x, hx, rfl⟩ := List.mem_map.1 hb
    rw [← IMap.get?_congr _ hk, R.linked.names x hx]
    exact IMap.get?_of_mem R.linked.nodup hx

/-- The target of a reference exists. -/
theorem Readable.target (R : Readable p) (n : Name) (sub : Option SubName) : ¬ NoTarget (arts p) n sub ↔
    ∃ a, p.artifacts.get? n = .some a ∧ sub.all (fun s => a.subnames.contains s) = true := by
  constructor
  · intro h
    cases hg : p.artifacts.get? n with
    | none => exact absurd (Or.inl ((R.none n).1 hg)) h
    | some a =>
      obtain ⟨ha, hk⟩ := (R.some n a).1 hg
      refine ⟨a, rfl, ?_⟩
      cases sub with
      | none => rfl
      | some s =>
        obtain ⟨x, hx, rfl⟩ := List.mem_map.1 ha
        show ISet.contains x.2.subnames s = true
        rw [R.subs x hx]
        by_contra hc
        exact h (Or.inr ⟨_, ha, hk, s, rfl, hc⟩)
  · rintro ⟨a, hg, hs⟩ (h | ⟨b, hb, hk, s, rfl, hd⟩)
    · rw [(R.none n).2 h] at hg; cases hg
    · rw [(R.some n b).2 ⟨hb, hk⟩] at hg
      cases hg
      obtain ⟨x, hx, rfl⟩ := List.mem_map.1 hb
      exact hd ((R.subs x hx s).1 hs)

theorem nameColor_of {a : Artifact} {n : Name} (h : p.artifacts.get? n = .some a) : ∃ k, a.completed.mdColor = .ok (hex k) ∧ p.nameColor n = .ok (hex k) := by
  obtain ⟨k, _, hk, _⟩ := C38_total a.completed
  refine ⟨k, hk, ?_⟩
  unfold Project.nameColor; rw [h]; exact hk

end

end Art
