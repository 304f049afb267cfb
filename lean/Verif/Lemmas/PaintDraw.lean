import Verif.Spec.Paint
import Verif.Lemmas.ExportShow

/-! Helper lemmas for C60: the graphs that are drawn after the replacements are the graphs of the text. -/

namespace Art
namespace Web

open Spec.Export Spec

/-! ## the shape of what the replacements give -/

/-- A link. -/
def Inline (o : Str) : Prop := (∃ t, o = '<' :: t) ∧ '\n' ∉ o

/-- A node. -/
def NodeText (o : Str) : Prop := ∃ t, o = '\n' :: (t ++ [' ']) ∧ '`' ∉ t ∧ ∃ c ∈ t, isWS c = false

/-- A piece of a graph after the replacements. -/
def NodeOut : Piece → Str → Prop
  | .plain c, o => o = [c]
  | .graph _ _, _ => False
  | _, o => NodeText o

/-- A piece of a text after the replacements. -/
def TextOut : Piece → Str → Prop
  | .plain c, o => o = [c]
  | .graph head body, o => ∃ qs os, Cut true body qs ∧ List.Forall₂ NodeOut qs os ∧ o = head ++ c!"\n" ++ os.flatten ++ c!"\n```"
  | _, o => Inline o

/-- Either of them; `n` is whether there may be nodes. -/
def MixOut (n : Bool) : Piece → Str → Prop
  | .plain c, o => o = [c]
  | .graph _ _, _ => True
  | _, o => Inline o ∨ (n = true ∧ NodeText o)

theorem NodeOut.mix {x : Piece} {o : Str} (h : NodeOut x o) : MixOut true x o := by
  cases x with
  | plain c => exact h
  | graph a b => trivial
  | sub s => exact Or.inr ⟨rfl, h⟩
  | ref n s => exact Or.inr ⟨rfl, h⟩

theorem TextOut.mix {x : Piece} {o : Str} (h : TextOut x o) : MixOut false x o := by
  cases x with
  | plain c => exact h
  | graph a b => trivial
  | sub s => exact Or.inl h
  | ref n s => exact Or.inl h

/-- The end of a line. -/
def Eol (r : Str) : Prop := r = [] ∨ ∃ t, r = '\n' :: t

theorem NoTickRef.suffix {a s : Str} (h : NoTickRef (a ++ s)) : NoTickRef s := fun x y e => h (a ++ x) y (by rw [e]; simp)

theorem first_open {bol : Bool} {s r : Str} {x : Piece} (h : First bol s x r) (hg : ∀ a b, x ≠ .graph a b) : ∃ t, s = '[' :: '[' :: t := by
  cases h with
  | sub _ => exact ⟨_, rfl⟩
  | ref _ _ => exact ⟨_, rfl⟩
  | graph _ => exact absurd rfl (hg _ _)

theorem mixed {x : Piece} {o : Str} {n : Bool} (h : MixOut n x o) (hp : ∀ c, x ≠ .plain c) (hg : ∀ a b, x ≠ .graph a b) : Inline o ∨ (n = true ∧ NodeText o) := by
  cases x with
  | plain c => exact absurd rfl (hp c)
  | graph a b => exact absurd rfl (hg a b)
  | sub s => exact h
  | ref n s => exact h

theorem first_not_plain {bol : Bool} {s r : Str} {x : Piece} (h : First bol s x r) (c : Char) : x ≠ .plain c := by rintro rfl; cases h

/-! ## going back -/

/-- A closing fence does not begin within a link or a node. -/
theorem closing_after {o z x r : Str} {n : Bool} (h : Inline o ∨ (n = true ∧ NodeText o)) (e : o ++ z = x ++ (c!"\n```" ++ r)) : ∃ x', x = o ++ x' ∧ z = x' ++ (c!"\n```" ++ r) := by
  rcases h with ⟨_, h⟩ | ⟨_, t, rfl, h, _⟩
  · exact mem_of_split (q := '\n') e.symm h
  · have e' : (x ++ c!"\n") ++ '`' :: (c!"``" ++ r) = ('\n' :: (t ++ [' '])) ++ z := by rw [e]; simp
    obtain ⟨w, h1, h2⟩ := mem_of_split e' (by simp [h])
    rcases List.eq_nil_or_concat w with rfl | ⟨w, c, rfl⟩
    · have := congrArg List.getLast? h1
      rw [List.append_nil, ← List.cons_append, List.getLast?_concat, List.getLast?_concat] at this
      cases this
    · have h1' : x ++ ['\n'] = ('\n' :: (t ++ [' '])) ++ w ++ [c] := by rw [h1]; simp
      obtain ⟨h3, h4⟩ := List.append_inj' h1' rfl
      cases h4
      exact ⟨w, h3, by rw [h2]; simp⟩

/-- A fence after the replacements is one before. -/
theorem tick_back {bol : Bool} {s z : Str} {ps : List Piece} {os : List Str} {n : Bool} (h : Cut bol s ps) (hf : List.Forall₂ (MixOut n) ps os)
    (hg : ∀ a b, Piece.graph a b ∉ ps) (e : os.flatten = '`' :: z) :
    ∃ s' ps' os', s = '`' :: s' ∧ Cut false s' ps' ∧ List.Forall₂ (MixOut n) ps' os' ∧ (∀ a b, Piece.graph a b ∉ ps') ∧ os'.flatten = z := by
  cases hf with
  | nil => cases e
  | @cons x o ps os h1 h2 =>
    have hg1 : ∀ a b, x ≠ .graph a b := fun a b e => hg a b (by simp [e])
    have hg2 : ∀ a b, Piece.graph a b ∉ ps := fun a b hm => hg a b (by simp [hm])
    rcases h.inv with ⟨r, hfi, _⟩ | ⟨c, t, rfl, rfl, _, hc⟩
    · rcases mixed h1 (first_not_plain hfi) hg1 with ⟨⟨t, rfl⟩, _⟩ | ⟨_, t, rfl, _⟩
      · simp at e
      · simp at e
    · simp only [MixOut] at h1
      subst h1
      simp only [List.flatten_cons, List.cons_append, List.nil_append, List.cons.injEq] at e
      obtain ⟨rfl, e⟩ := e
      exact ⟨t, ps, os, rfl, hc, h2, hg2, e⟩

/-- The end of a line after the replacements is one before. -/
theorem eol_back {bol : Bool} {s : Str} {ps : List Piece} {os : List Str} {n : Bool} (h : Cut bol s ps) (hf : List.Forall₂ (MixOut n) ps os)
    (hg : ∀ a b, Piece.graph a b ∉ ps) (hi : n = true → ∀ t, s ≠ '[' :: '[' :: t) (e : Eol os.flatten) : Eol s := by
  cases hf with
  | nil => rw [h.nil_inv]; exact Or.inl rfl
  | @cons x o ps os h1 h2 =>
    have hg1 : ∀ a b, x ≠ .graph a b := fun a b e => hg a b (by simp [e])
    rcases h.inv with ⟨r, hfi, _⟩ | ⟨c, t, rfl, rfl, _, hc⟩
    · obtain ⟨u, hu⟩ := first_open hfi hg1
      rcases mixed h1 (first_not_plain hfi) hg1 with ⟨⟨t, rfl⟩, _⟩ | ⟨hn, _⟩
      · rcases e with e | ⟨_, e⟩ <;> simp at e
      · exact absurd hu (hi hn u)
    · simp only [MixOut] at h1
      subst h1
      rcases e with e | ⟨t', e⟩
      · simp at e
      · simp only [List.flatten_cons, List.cons_append, List.nil_append, List.cons.injEq] at e
        exact Or.inr ⟨t, by rw [e.1]⟩

/-- A closing fence after the replacements is one before. -/
theorem closing_back {bol : Bool} {s x r : Str} {ps : List Piece} {os : List Str} {n : Bool} (h : Cut bol s ps) (hf : List.Forall₂ (MixOut n) ps os)
    (hg : ∀ a b, Piece.graph a b ∉ ps) (hi : n = true → NoTickRef s) (e : os.flatten = x ++ (c!"\n```" ++ r)) (hr : Eol r) :
    ∃ x0 r0, s = x0 ++ (c!"\n```" ++ r0) ∧ Eol r0 ∧ (x ≠ [] → x0 ≠ []) := by
  induction hf generalizing bol s x with
  | nil => simp at e
  | @cons y o ps os h1 h2 ih =>
    have hg1 : ∀ a b, y ≠ .graph a b := fun a b e => hg a b (by simp [e])
    have hg2 : ∀ a b, Piece.graph a b ∉ ps := fun a b hm => hg a b (by simp [hm])
    rcases h.inv with ⟨s', hfi, hc⟩ | ⟨c, t, rfl, rfl, _, hc⟩
    · obtain ⟨x', rfl, e'⟩ := closing_after (mixed h1 (first_not_plain hfi) hg1) e
      have hs := first_src hfi
      obtain ⟨x0, r0, h3, h4, _⟩ := ih hc hg2 (fun hn => by have := hi hn; rw [hs] at this; exact this.suffix) e'
      refine ⟨y.src ++ x0, r0, by rw [hs, h3]; simp, h4, fun _ hn => ?_⟩
      obtain ⟨t, ht⟩ := first_open hfi hg1
      simp only [List.append_eq_nil_iff] at hn
      have := first_length hfi
      rw [hs, hn.1] at this
      simp at this
    · simp only [MixOut] at h1
      subst h1
      simp only [List.flatten_cons, List.cons_append, List.nil_append] at e
      cases x with
      | nil =>
        simp only [List.nil_append, List.cons.injEq] at e
        obtain ⟨rfl, e⟩ := e
        obtain ⟨s1, ps1, os1, rfl, c1, f1, g1, e1⟩ := tick_back hc h2 hg2 e
        obtain ⟨s2, ps2, os2, rfl, c2, f2, g2, e2⟩ := tick_back c1 f1 g1 e1
        obtain ⟨s3, ps3, os3, rfl, c3, f3, g3, e3⟩ := tick_back c2 f2 g2 e2
        refine ⟨[], s3, rfl, ?_, fun h => absurd rfl h⟩
        refine eol_back c3 f3 g3 ?_ (by rw [e3]; exact hr)
        rintro hn u rfl
        exact hi hn ['\n'] u rfl
      | cons d x =>
        simp only [List.cons_append, List.cons.injEq] at e
        obtain ⟨rfl, e⟩ := e
        obtain ⟨x0, r0, h3, h4, _⟩ := ih hc hg2 (fun hn => NoTickRef.suffix (a := [c]) (hi hn)) e
        exact ⟨c :: x0, r0, by rw [h3]; rfl, h4, fun _ => by simp⟩

/-- A text with a graph has a closing fence. -/
theorem graph_closing {bol : Bool} {s head body : Str} {ps : List Piece} (h : Cut bol s ps) (hm : Piece.graph head body ∈ ps) :
    ∃ x0 r0, s = x0 ++ (c!"\n```" ++ r0) ∧ Eol r0 ∧ x0 ≠ [] := by
  obtain ⟨pre, t, rest, rfl, ⟨e, ⟨d, w, rfl, _⟩, ⟨b, _, rfl⟩, hr⟩, _⟩ := cut_graph_mem h hm
  exact ⟨pre ++ (c!"```" ++ d ++ w ++ c!"\n" ++ b), rest, by rw [e]; simp, hr, by simp⟩

theorem mixes {ps : List Piece} {os : List Str} (h : List.Forall₂ TextOut ps os) : List.Forall₂ (MixOut false) ps os := h.imp fun _ _ => TextOut.mix

/-- A closing fence after the replacements in a text is one before. -/
theorem closing_text {bol : Bool} {s x r : Str} {ps : List Piece} {os : List Str} (h : Cut bol s ps) (hf : List.Forall₂ TextOut ps os)
    (e : os.flatten = x ++ (c!"\n```" ++ r)) (hr : Eol r) : ∃ x0 r0, s = x0 ++ (c!"\n```" ++ r0) ∧ Eol r0 ∧ (x ≠ [] → x0 ≠ []) := by
  by_cases hg : ∃ a b, Piece.graph a b ∈ ps
  · obtain ⟨a, b, hm⟩ := hg
    obtain ⟨x0, r0, h1, h2, h3⟩ := graph_closing h hm
    exact ⟨x0, r0, h1, h2, fun _ => h3⟩
  · exact closing_back h (mixes hf) (fun a b hm => hg ⟨a, b, hm⟩) nofun e hr

/-- A character that begins neither a link nor a graph is the same before. -/
theorem char_back {c : Char} {s z : Str} {bol : Bool} {ps : List Piece} {os : List Str} (h : Cut bol s ps) (hf : List.Forall₂ TextOut ps os)
    (hc : c ≠ '<') (hb : bol = true → c ≠ '`') (e : os.flatten = c :: z) :
    ∃ s' ps' os', s = c :: s' ∧ Cut (c == '\n') s' ps' ∧ List.Forall₂ TextOut ps' os' ∧ os'.flatten = z := by
  cases hf with
  | nil => cases e
  | @cons x o ps os h1 h2 =>
    cases h with
    | sub _ _ =>
      obtain ⟨⟨t, rfl⟩, _⟩ := h1
      simp only [List.flatten_cons, List.cons_append, List.cons.injEq] at e
      exact absurd e.1.symm hc
    | ref _ _ _ =>
      obtain ⟨⟨t, rfl⟩, _⟩ := h1
      simp only [List.flatten_cons, List.cons_append, List.cons.injEq] at e
      exact absurd e.1.symm hc
    | graph hg _ =>
      obtain ⟨qs, ns, _, _, rfl⟩ := h1
      obtain ⟨⟨_, ⟨d, w, rfl, _⟩, _⟩, _⟩ := hg
      simp only [List.flatten_cons, List.cons_append, List.cons.injEq] at e
      exact absurd e.1.symm (hb rfl)
    | plain _ hcut =>
      simp only [TextOut] at h1
      subst h1
      simp only [List.flatten_cons, List.cons_append, List.nil_append, List.cons.injEq] at e
      obtain ⟨rfl, e⟩ := e
      exact ⟨_, _, _, rfl, hcut, h2, e⟩

/-- The same for several characters. -/
theorem chars_back {y s z : Str} {bol : Bool} {ps : List Piece} {os : List Str} (h : Cut bol s ps) (hf : List.Forall₂ TextOut ps os)
    (hy : '<' ∉ y) (hb : '`' ∉ y) (e : os.flatten = y ++ z) :
    ∃ s' bol' ps' os', s = y ++ s' ∧ Cut bol' s' ps' ∧ List.Forall₂ TextOut ps' os' ∧ os'.flatten = z := by
  induction y generalizing bol s ps os with
  | nil => exact ⟨s, bol, ps, os, rfl, h, hf, e⟩
  | cons c y ih =>
    simp only [List.mem_cons, not_or] at hy hb
    obtain ⟨s', ps', os', rfl, h1, h2, h3⟩ := char_back h hf (fun e => hy.1 e.symm) (fun _ e => hb.1 e.symm) e
    obtain ⟨s'', bol'', ps'', os'', rfl, h4⟩ := ih h1 h2 hy.2 hb.2 h3
    exact ⟨s'', bol'', ps'', os'', rfl, h4⟩

theorem blank_chars {d w : Str} (hd : upper d = c!"DOT") (hw : ∀ c ∈ w, isWS c = true) (q : Char) (hq : q = '<' ∨ q = '`' ∨ q = '{') : q ∉ d ++ w := by
  intro hm
  rcases List.mem_append.1 hm with hm | hm
  · have : upperC q ∈ upper d := List.mem_map.2 ⟨q, hm, rfl⟩
    rw [hd] at this
    rcases hq with rfl | rfl | rfl <;> revert this <;> decide
  · have := hw _ hm
    rcases hq with rfl | rfl | rfl <;> revert this <;> decide

/-- Where a character stands for itself, no graph begins after the replacements. -/
theorem no_fence {c : Char} {t : Str} {ps : List Piece} {os : List Str} (hn : NoPiece true (c :: t)) (h : Cut (c == '\n') t ps) (hf : List.Forall₂ TextOut ps os) :
    ∀ a b r, ¬ MayGraph (c :: os.flatten) a b r := by
  rintro a b r ⟨e, ⟨d, w, rfl, hd, hw⟩, ⟨b, hb, rfl⟩, hr⟩
  simp only [List.cons_append, List.nil_append, List.append_assoc, List.cons.injEq] at e
  obtain ⟨rfl, e⟩ := e
  obtain ⟨t, ps, os, rfl, h, hf, e⟩ := char_back h hf (by decide) (by decide) e
  obtain ⟨t, ps, os, rfl, h, hf, e⟩ := char_back h hf (by decide) (by decide) e
  rw [← List.append_assoc] at e
  obtain ⟨t, bol, ps, os, rfl, h, hf, e⟩ := chars_back h hf (blank_chars hd hw '<' (by simp)) (blank_chars hd hw '`' (by simp)) e
  obtain ⟨t, ps, os, rfl, h, hf, e⟩ := char_back h hf (by decide) (fun _ => by decide) e
  obtain ⟨x0, r0, rfl, h2, h3⟩ := closing_text h hf (x := b) (r := r) (by rw [e]; simp) hr
  refine hn.2.2 rfl (c!"```" ++ d ++ w) (x0 ++ c!"\n") r0 ⟨by simp, ⟨d, w, rfl, hd, hw⟩, ⟨x0, h3 hb, rfl⟩, h2⟩

/-- The end of a line before the replacements is one after. -/
theorem eol_forth {s : Str} {bol : Bool} {ps : List Piece} {os : List Str} (h : Cut bol s ps) (hf : List.Forall₂ TextOut ps os) (e : Eol s) : Eol os.flatten := by
  rcases e with rfl | ⟨t, rfl⟩
  · cases ps with
    | nil => cases hf; exact Or.inl rfl
    | cons x ps =>
      rcases h.inv with ⟨r, hfi, _⟩ | ⟨c, t, _, e, _⟩
      · exact absurd hfi first_ne_nil
      · cases e
  · cases hf with
    | nil => cases h
    | @cons x o ps os h1 h2 =>
      rcases h.inv with ⟨r, hfi, _⟩ | ⟨c, t, rfl, e, _⟩
      · have := first_src hfi
        cases x with
        | plain c => cases hfi
        | sub s => simp [Piece.src] at this
        | ref n s => simp [Piece.src] at this
        | graph a b =>
          cases hfi with
          | graph hg =>
            obtain ⟨u, hu⟩ := mayGraph_tick hg.1
            cases hu
      · cases e
        simp only [TextOut] at h1
        subst h1
        exact Or.inr ⟨_, rfl⟩

/-- A graph whose replacement is blank had nothing to replace. -/
theorem blank_nodes {qs : List Piece} {ns : List Str} {b : Str} {bol : Bool} (h : Cut bol b qs) (hf : List.Forall₂ NodeOut qs ns)
    (hw : ∀ c ∈ ns.flatten, isWS c = true) : ns.flatten = b := by
  induction hf generalizing bol b with
  | nil => rw [h.nil_inv]; rfl
  | @cons x o qs ns h1 h2 ih =>
    have hw' : ∀ c ∈ ns.flatten, isWS c = true := fun c hc => hw c (by simp [List.mem_flatten] at hc ⊢; exact Or.inr hc)
    have node : ¬ NodeText o := by
      rintro ⟨t, rfl, _, c, hc, hn⟩
      have := hw c (by simp [hc])
      rw [hn] at this; cases this
    rcases h.inv with ⟨r, hfi, hc⟩ | ⟨c, t, rfl, rfl, _, hc⟩
    · cases x with
      | plain c => cases hfi
      | graph a b => exact h1.elim
      | sub s => exact absurd h1 node
      | ref n s => exact absurd h1 node
    · simp only [NodeOut] at h1
      subst h1
      simp [ih hc hw']

/-- The last newline of a graph is still there. -/
theorem node_ends {qs : List Piece} {ns : List Str} {b : Str} {bol : Bool} (h : Cut bol (b ++ c!"\n") qs) (hf : List.Forall₂ NodeOut qs ns) :
    ∃ m, ns.flatten = m ++ c!"\n" ∧ (b ≠ [] → m ≠ []) := by
  induction hf generalizing bol b with
  | nil => have := h.nil_inv; simp at this
  | @cons x o qs ns h1 h2 ih =>
    rcases h.inv with ⟨r, hfi, hc⟩ | ⟨c, t, rfl, e, _, hc⟩
    · have hg : ∀ a b, x ≠ .graph a b := by rintro a b rfl; exact h1.elim
      have hs := first_src hfi
      obtain ⟨k, hk, hsrc⟩ := piece_clean (first_fine hfi) (first_not_plain hfi) hg
      have hnl : '\n' ∉ x.src := by
        rw [hsrc]
        simp only [List.mem_append, List.mem_cons, List.not_mem_nil, or_false, not_or]
        exact ⟨⟨⟨by decide, by decide⟩, hk.not_mem (by decide)⟩, by decide, by decide⟩
      obtain ⟨b', rfl, hr⟩ := mem_of_split (a := b) (b := []) hs hnl
      rw [hr] at hc
      obtain ⟨m, h3, _⟩ := ih hc
      refine ⟨o ++ m, by simp [h3], fun _ hn => ?_⟩
      have ho : NodeText o := by
        cases x with
        | plain c => exact absurd rfl (first_not_plain hfi c)
        | graph a b => exact h1.elim
        | sub s => exact h1
        | ref n s => exact h1
      obtain ⟨t, rfl, _⟩ := ho
      simp at hn
    · simp only [NodeOut] at h1
      subst h1
      cases b with
      | nil =>
        simp only [List.nil_append, List.cons.injEq] at e
        obtain ⟨rfl, rfl⟩ := e
        cases qs with
        | nil => cases h2; exact ⟨[], rfl, fun h => absurd rfl h⟩
        | cons y qs =>
          rcases hc.inv with ⟨r, hfi, _⟩ | ⟨_, _, _, e, _⟩
          · exact absurd hfi first_ne_nil
          · cases e
      | cons d b =>
        simp only [List.cons_append, List.cons.injEq] at e
        obtain ⟨rfl, rfl⟩ := e
        obtain ⟨m, h3, _⟩ := ih hc
        exact ⟨d :: m, by simp [h3], fun _ => by simp⟩

theorem nodes_no_graph {qs : List Piece} {ns : List Str} (h : List.Forall₂ NodeOut qs ns) (a b : Str) : Piece.graph a b ∉ qs := by
  induction h with
  | nil => simp
  | @cons x o qs ns h1 _ ih =>
    rw [List.mem_cons, not_or]
    refine ⟨?_, ih⟩
    rintro rfl
    exact h1

/-- A graph after the replacements is read as far as before, possibly without blanks at its beginning. -/
theorem graph_forth {s head body rest : Str} {ps qs : List Piece} {os ns : List Str} (hg : Graph s head body rest) (h : Cut false rest ps) (hf : List.Forall₂ TextOut ps os)
    (hq : Cut true body qs) (hn : List.Forall₂ NodeOut qs ns) (ht : NoTickRef body) :
    ∃ h' b' w, Graph (head ++ c!"\n" ++ ns.flatten ++ c!"\n```" ++ os.flatten) h' b' os.flatten ∧ ns.flatten ++ c!"\n" = w ++ b' ∧ ∀ c ∈ w, isWS c = true := by
  obtain ⟨⟨es, ⟨d, w, rfl, hd, hw⟩, ⟨b, hb, rfl⟩, hr⟩, hbest⟩ := hg
  obtain ⟨m, hm, hm'⟩ := node_ends hq hn
  have hm' := hm' hb
  have hstd : MayGraph (c!"```" ++ d ++ w ++ c!"\n" ++ ns.flatten ++ c!"\n```" ++ os.flatten) (c!"```" ++ d ++ w) (ns.flatten ++ c!"\n") os.flatten :=
    ⟨by simp, ⟨d, w, rfl, hd, hw⟩, ⟨ns.flatten, by rw [hm]; simp, rfl⟩, eol_forth h hf hr⟩
  cases hdot : dotHere (c!"```" ++ d ++ w ++ c!"\n" ++ ns.flatten ++ c!"\n```" ++ os.flatten) with
  | none => exact absurd hstd (dotHere_none.1 hdot _ _ _)
  | some x =>
    obtain ⟨h', b', r', _, hG⟩ := dotHere_some hdot
    have hle : (c!"```" ++ d ++ w).length ≤ h'.length := by rcases hG.2 _ _ _ hstd with h | h <;> omega
    obtain ⟨⟨eG, ⟨d', w', eh, hd', hw'⟩, ⟨b0, hb0, rfl⟩, hr'⟩, hmin⟩ := hG
    -- the opening is longer by blanks
    have hk : ∃ k, h' ++ c!"\n" = c!"```" ++ d ++ w ++ c!"\n" ++ k ∧ ∀ c ∈ k, isWS c = true := by
      obtain ⟨z, rfl⟩ : ∃ z, h' = c!"```" ++ d ++ w ++ z := by
        have e : h' ++ (c!"\n" ++ (b0 ++ c!"\n") ++ c!"```" ++ r') = c!"```" ++ d ++ w ++ (c!"\n" ++ ns.flatten ++ c!"\n```" ++ os.flatten) := by
          simpa using eG.symm
        rcases split_at e with ⟨z, h1, _⟩ | ⟨z, _, h1, _⟩
        · have hz : z = [] := by
            rw [h1, List.length_append] at hle
            exact List.eq_nil_of_length_eq_zero (by omega)
          subst hz
          exact ⟨[], by rw [h1]; simp⟩
        · exact ⟨z, h1⟩
      have hz : ∀ c ∈ z, isWS c = true := by
        have l1 : d.length = 3 := by have := congrArg List.length hd; simpa [upper] using this
        have l2 : d'.length = 3 := by have := congrArg List.length hd'; simpa [upper] using this
        simp only [List.append_assoc] at eh
        obtain ⟨_, e2⟩ := List.append_inj (List.append_cancel_left eh) (by rw [l1, l2])
        intro c hc
        exact hw' c (by rw [← e2]; simp [hc])
      cases z with
      | nil => exact ⟨[], by simp, by simp⟩
      | cons c z =>
        have hc : c = '\n' := by
          have : c!"```" ++ d ++ w ++ (c :: z ++ c!"\n" ++ (b0 ++ c!"\n") ++ c!"```" ++ r') = c!"```" ++ d ++ w ++ (c!"\n" ++ ns.flatten ++ c!"\n```" ++ os.flatten) := by
            simpa using eG.symm
          have := List.append_cancel_left this
          simp only [List.cons_append, List.cons.injEq] at this
          exact this.1
        subst hc
        refine ⟨z ++ c!"\n", by simp, fun c hc => ?_⟩
        rcases List.mem_append.1 hc with hc | hc
        · exact hz c (by simp [hc])
        · rw [List.mem_singleton.1 hc]; decide
    obtain ⟨k, hk, hkw⟩ := hk
    have hkt : '`' ∉ k := fun hc => absurd (hkw _ hc) (by decide)
    have e1 : k ++ (b0 ++ c!"\n```" ++ r') = (ns.flatten ++ c!"\n") ++ (c!"```" ++ os.flatten) := by
      have : (h' ++ c!"\n") ++ (b0 ++ c!"\n```" ++ r') = (c!"```" ++ d ++ w ++ c!"\n") ++ ((ns.flatten ++ c!"\n") ++ (c!"```" ++ os.flatten)) := by
        simpa using eG.symm
      rw [hk, List.append_assoc] at this
      exact List.append_cancel_left this
    obtain ⟨M, hM, e2⟩ : ∃ M, ns.flatten ++ c!"\n" = k ++ M ∧ b0 ++ c!"\n```" ++ r' = M ++ (c!"```" ++ os.flatten) := by
      rcases split_at e1 with ⟨M, h1, h2⟩ | ⟨z, hz, h1, h2⟩
      · exact ⟨M, h1, h2⟩
      · cases z with
        | nil => exact absurd rfl hz
        | cons c z =>
          simp only [List.cons_append, List.cons.injEq] at h2
          exact absurd (by rw [h1, ← h2.1]; simp) hkt
    have e3 : (b0 ++ c!"\n") ++ (c!"```" ++ r') = M ++ (c!"```" ++ os.flatten) := by rw [← e2]; simp
    have hgr := nodes_no_graph hn
    rcases lt_trichotomy (b0 ++ c!"\n").length M.length with hlt | heq | hgt
    · -- the graph would end earlier
      exfalso
      obtain ⟨v, hv, rfl⟩ : ∃ v, v ≠ [] ∧ M = (b0 ++ c!"\n") ++ v := by
        rcases split_at e3 with ⟨v, h1, _⟩ | ⟨v, _, h1, _⟩
        · exact ⟨v, fun h => by rw [h1, h] at hlt; simp at hlt, h1⟩
        · rw [h1, List.length_append] at hlt; omega
      have e4 : c!"```" ++ r' = v ++ (c!"```" ++ os.flatten) := List.append_cancel_left (as := b0 ++ c!"\n") (by rw [e3, List.append_assoc])
      obtain ⟨v, c, rfl⟩ := (List.eq_nil_or_concat v).resolve_left hv
      simp only [List.concat_eq_append] at *
      have hc : c = '\n' := by
        have : ns.flatten ++ c!"\n" = (k ++ (b0 ++ c!"\n" ++ v)) ++ [c] := by rw [hM]; simp
        have := (List.append_inj' this rfl).2
        simp at this; exact this.symm
      subst hc
      have e5 : v ++ '\n' :: (c!"```" ++ os.flatten) = c!"```" ++ r' := by rw [e4]; simp
      obtain ⟨v, rfl, e6⟩ := mem_of_split e5 (by decide)
      have hN : ns.flatten = (k ++ b0) ++ (c!"\n```" ++ v) := by
        have : ns.flatten ++ c!"\n" = ((k ++ b0) ++ (c!"\n```" ++ v)) ++ c!"\n" := by rw [hM]; simp
        exact List.append_cancel_right this
      have hev : Eol v := by
        rcases hr' with rfl | ⟨t, rfl⟩
        · simp at e6
        · cases v with
          | nil => exact Or.inl rfl
          | cons c v => simp only [List.cons_append, List.cons.injEq] at e6; exact Or.inr ⟨v, by rw [e6.1]⟩
      obtain ⟨x0, r0, h1, h2, h3⟩ := closing_back hq (hn.imp fun _ _ => NodeOut.mix) hgr (fun _ => ht) hN hev
      have h3 := h3 (by simp [hb0])
      rcases h2 with rfl | ⟨t, rfl⟩
      · have := congrArg List.getLast? h1
        simp at this
      · have := hbest (c!"```" ++ d ++ w) (x0 ++ c!"\n") (('\n' :: t) ++ (c!"```" ++ rest))
          ⟨by rw [es, h1]; simp, ⟨d, w, rfl, hd, hw⟩, ⟨x0, h3, rfl⟩, Or.inr ⟨_, rfl⟩⟩
        have hl := congrArg List.length h1
        simp at this hl
        omega
    · obtain ⟨rfl, e4⟩ := List.append_inj e3 heq
      have e5 := List.append_cancel_left e4
      subst e5
      exact ⟨h', _, k, ⟨⟨eG, ⟨d', w', eh, hd', hw'⟩, ⟨b0, hb0, rfl⟩, hr'⟩, hmin⟩, hM, hkw⟩
    · -- the graph would end later
      exfalso
      have hMb : M = [] ∨ M = c!"\n" := by
        rcases List.eq_nil_or_concat M with rfl | ⟨M, c, rfl⟩
        · exact Or.inl rfl
        · simp only [List.concat_eq_append] at *
          have hc : c = '\n' := by
            have := congrArg List.getLast? hM
            simp at this; exact this.symm
          subst hc
          by_cases hM0 : M = []
          · subst hM0; exact Or.inr rfl
          · have := hmin h' (M ++ c!"\n") os.flatten ⟨?_, ⟨d', w', eh, hd', hw'⟩, ⟨M, hM0, rfl⟩, eol_forth h hf hr⟩
            · omega
            · have : h' ++ c!"\n" ++ (M ++ c!"\n") ++ c!"```" ++ os.flatten = c!"```" ++ d ++ w ++ c!"\n" ++ (k ++ (M ++ c!"\n")) ++ c!"```" ++ os.flatten := by
                rw [hk]; simp
              rw [this, ← hM]; simp
      have hblank : ∀ c ∈ ns.flatten, isWS c = true := by
        intro c hc
        have : c ∈ k ++ M := by rw [← hM]; simp only [List.mem_append]; exact Or.inl hc
        rcases List.mem_append.1 this with h | h
        · exact hkw c h
        · rcases hMb with rfl | rfl
          · cases h
          · rw [List.mem_singleton.1 h]; decide
      have hbody := blank_nodes hq hn hblank
      rw [hbody] at hm
      obtain ⟨v, hv, hbv⟩ : ∃ v, v ≠ [] ∧ b0 ++ c!"\n" = M ++ v := by
        rcases split_at e3.symm with ⟨v, h1, _⟩ | ⟨v, _, h1, _⟩
        · exact ⟨v, fun h => by rw [h1, h] at hgt; simp at hgt, h1⟩
        · rw [h1, List.length_append] at hgt; omega
      have e4 : v ++ (c!"```" ++ r') = c!"```" ++ os.flatten := List.append_cancel_left (as := M) (by rw [← e3, hbv, List.append_assoc])
      obtain ⟨v, c, rfl⟩ := (List.eq_nil_or_concat v).resolve_left hv
      simp only [List.concat_eq_append] at *
      have hc : c = '\n' := by
        have := congrArg List.getLast? hbv
        simp at this; exact this.symm
      subst hc
      have e5 : v ++ '\n' :: (c!"```" ++ r') = c!"```" ++ os.flatten := by rw [← e4]; simp
      obtain ⟨v, rfl, e6⟩ := mem_of_split e5 (by decide)
      obtain ⟨x0, r0, h1, h2, _⟩ := closing_text h hf (x := v) (r := r') (by rw [e6]; simp) hr'
      have := hbest (c!"```" ++ d ++ (w ++ c!"\n" ++ m)) (c!"```" ++ x0 ++ c!"\n") r0 ⟨?_, ⟨d, _, rfl, hd, ?_⟩, ⟨c!"```" ++ x0, by simp, rfl⟩, h2⟩
      · simp at this
      · rw [es, h1, hm]; simp
      · intro c hc
        rcases List.mem_append.1 hc with hc | hc
        · rcases List.mem_append.1 hc with hc | hc
          · exact hw c hc
          · rw [List.mem_singleton.1 hc]; decide
        · exact hblank c (by rw [hbody, hm]; simp [hc])

/-! ## drawing -/

/-- A piece at the end: graphs are drawn, the rest is as it was. -/
def Final (B : Browser) (x : Piece) (o f : Str) : Prop :=
  match x with
  | .graph head body => ∃ qs ns w d, Cut true body qs ∧ List.Forall₂ NodeOut qs ns ∧ o = head ++ c!"\n" ++ ns.flatten ++ c!"\n```" ∧
      ns.flatten ++ c!"\n" = w ++ d ∧ (∀ c ∈ w, isWS c = true) ∧ f = B.svgBlock d
  | _ => f = o

theorem fenceHere_none {bol : Bool} {s : Str} (h : bol = true → ∀ a b r, ¬ MayGraph s a b r) : fenceHere bol s = none := by
  unfold fenceHere
  cases bol with
  | false => rfl
  | true => rw [if_pos rfl, dotHere_none.2 (h rfl)]; rfl

theorem fenceHere_graph {s head body rest : Str} (h : Graph s head body rest) : fenceHere true s = some (body, rest) := by
  unfold fenceHere
  rw [if_pos rfl, dotHere_graph h]
  rfl

theorem go_inline (B : Browser) {o z : Str} {n : Nat} (hn : '\n' ∉ o) (hl : (o ++ z).length ≤ n) :
    ∃ n', z.length ≤ n' ∧ Browser.drawGraphs.go B n false (o ++ z) = o ++ Browser.drawGraphs.go B n' false z := by
  induction o generalizing n with
  | nil => exact ⟨n, hl, rfl⟩
  | cons c o ih =>
    cases n with
    | zero => simp at hl
    | succ n =>
      simp only [List.mem_cons, not_or] at hn
      obtain ⟨n', h1, h2⟩ := ih hn.2 (n := n) (by simp at hl ⊢; omega)
      refine ⟨n', h1, ?_⟩
      have hc : (c == '\n') = false := by rw [beq_eq_false_iff_ne]; exact fun e => hn.1 e.symm
      rw [List.cons_append, Browser.drawGraphs.go, fenceHere_none (bol := false) nofun]
      simp only [hc, h2, List.cons_append]

theorem go_text (B : Browser) {s : Str} {bol : Bool} {ps : List Piece} {os : List Str} (h : Cut bol s ps) (hf : List.Forall₂ TextOut ps os)
    (ht : ∀ a b, Piece.graph a b ∈ ps → NoTickRef b) {n : Nat} (hl : os.flatten.length ≤ n) :
    ∃ fs, List.Forall₂ (fun x f => Final B x.1 x.2 f) (ps.zip os) fs ∧ Browser.drawGraphs.go B n bol os.flatten = fs.flatten := by
  induction hf generalizing bol s n with
  | nil =>
    refine ⟨[], .nil, ?_⟩
    cases n with
    | zero => rfl
    | succ n =>
      rw [List.flatten_nil, Browser.drawGraphs.go, fenceHere_none (fun _ a b r hm => by obtain ⟨t, e⟩ := mayGraph_tick hm; cases e)]
  | @cons x o ps os h1 h2 ih =>
    have ht' : ∀ a b, Piece.graph a b ∈ ps → NoTickRef b := fun a b hm => ht a b (by simp [hm])
    have inline : Inline o → ∀ r, Cut false r ps → (∀ f, Final B x o f ↔ f = o) → ∃ fs, List.Forall₂ (fun x f => Final B x.1 x.2 f) ((x :: ps).zip (o :: os)) fs ∧
        Browser.drawGraphs.go B n bol (o :: os).flatten = fs.flatten := by
      rintro ⟨⟨t, rfl⟩, hnl⟩ r hc hfin
      cases n with
      | zero => simp at hl
      | succ n =>
        obtain ⟨n', h3, h4⟩ := go_inline B (o := t) (z := os.flatten) (n := n) (fun hm => hnl (by simp [hm])) (by simp at hl ⊢; omega)
        obtain ⟨fs, h5, h6⟩ := ih hc ht' h3
        refine ⟨('<' :: t) :: fs, .cons ((hfin _).2 rfl) h5, ?_⟩
        rw [List.flatten_cons, List.cons_append, Browser.drawGraphs.go,
          fenceHere_none (fun _ a b r hm => by obtain ⟨t, e⟩ := mayGraph_tick hm; cases e)]
        simp only [show ('<' == '\n') = false from rfl, h4, h6, List.flatten_cons, List.cons_append]
    cases h with
    | sub _ hc => exact inline h1 _ hc (fun f => Iff.rfl)
    | ref _ _ hc => exact inline h1 _ hc (fun f => Iff.rfl)
    | plain hno hc =>
      simp only [TextOut] at h1
      subst h1
      cases n with
      | zero => simp at hl
      | succ n =>
        obtain ⟨fs, h5, h6⟩ := ih hc ht' (n := n) (by simp at hl ⊢; omega)
        refine ⟨_ :: fs, .cons rfl h5, ?_⟩
        rw [List.flatten_cons, List.cons_append, List.nil_append, Browser.drawGraphs.go, fenceHere_none (by rintro rfl; exact no_fence hno hc h2)]
        simp only [h6, List.flatten_cons, List.cons_append, List.nil_append]
    | @graph _ head body rest _ hg hc =>
      obtain ⟨qs, ns, hq, hns, rfl⟩ := h1
      cases n with
      | zero => simp at hl
      | succ n =>
        obtain ⟨h', b', w, h3, h4, h5⟩ := graph_forth hg hc h2 hq hns (ht head body (by simp))
        obtain ⟨fs, h6, h7⟩ := ih hc ht' (n := n) (by simp at hl ⊢; omega)
        refine ⟨B.svgBlock b' :: fs, .cons ⟨qs, ns, w, b', hq, hns, rfl, h4, h5, rfl⟩ h6, ?_⟩
        rw [List.flatten_cons, Browser.drawGraphs.go.eq_def]
        simp only [fenceHere_graph h3]
        simp only [h7, List.flatten_cons]

end Web
end Art
