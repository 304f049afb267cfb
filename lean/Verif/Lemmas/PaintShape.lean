import Verif.Lemmas.PaintDraw
import Verif.Lemmas.View

/-! The replacements made in a text have the shape on which the search for graphs relies. -/

namespace Art
namespace Web

open Spec Spec.Export

theorem nodeText_of {o : Str} (h1 : c!"\n        {" <+: o) (h2 : o.getLast? = some ' ') (h3 : '`' ∉ o) : NodeText o := by
  obtain ⟨u, rfl⟩ := h1
  rcases List.eq_nil_or_concat u with rfl | ⟨u, c, rfl⟩
  · simp at h2
  · rw [List.concat_eq_append] at *
    rw [← List.append_assoc, List.getLast?_concat] at h2
    cases h2
    refine ⟨c!"        {" ++ u, by simp, fun hm => h3 ?_, '{', by simp, by decide⟩
    simp only [List.mem_append] at hm ⊢
    rcases hm with hm | hm
    · exact Or.inl (by revert hm; decide)
    · exact Or.inr (Or.inl hm)

theorem no_tick {k : Str} (h : Clean k) : '`' ∉ k := fun hm => absurd (h _ hm) (by decide)
theorem no_nl {k : Str} (h : Clean k) : '\n' ∉ k := fun hm => absurd (h _ hm) (by decide)

theorem lower_tick {k : Str} (h : Clean k) : '`' ∉ lower k := by
  intro hm
  obtain ⟨c, hc, e⟩ := List.mem_map.1 hm
  have : c = '`' := by
    revert e
    rw [char_eq, char_eq, lowerC_toNat]
    split_ifs <;> simp; omega
  exact no_tick h (this ▸ hc)

theorem subs_clean {sub : Option Str} (h : ∀ y, sub = some y → SubLike y) :
    Clean (((sub.map SubName.mk).map SubName.keyStr).getD []) ∧ Clean (((sub.map SubName.mk).map SubName.raw).getD []) := by
  cases sub with
  | none => exact ⟨clean_nil, clean_nil⟩
  | some y => exact ⟨(clean_sub (h y rfl)).upper, clean_sub (h y rfl)⟩

theorem last_append {a b : Str} {c : Char} (h : b.getLast? = some c) : (a ++ b).getLast? = some c := by rw [List.getLast?_append, h]; rfl

theorem head_append {a b c : Str} (h : a <+: b) : a <+: b ++ c := h.trans (List.prefix_append _ _)

theorem dne_shape (n : Name) {sub : Option Str} (h : ∀ y, sub = some y → SubLike y) : NodeText (dneNameDot n (sub.map SubName.mk)) := by
  obtain ⟨h1, h2⟩ := subs_clean h
  refine nodeText_of ?_ ?_ ?_
  · unfold dneNameDot
    repeat (first | exact ⟨_, rfl⟩ | apply head_append)
  · exact last_append rfl
  · simp only [dneNameDot, List.mem_append, not_or]
    refine ⟨⟨⟨⟨⟨⟨?_, no_tick (clean_key n)⟩, no_tick h1⟩, ?_⟩, no_tick (clean_raw n)⟩, no_tick h2⟩, ?_⟩ <;> decide

theorem found_shape (n : Name) {sub : Option Str} (h : ∀ y, sub = some y → SubLike y) (f : Bool) (k : TermColor) : NodeText (foundNameDot n (sub.map SubName.mk) f (hex k)) := by
  obtain ⟨h1, h2⟩ := subs_clean h
  refine nodeText_of ?_ ?_ ?_
  · unfold foundNameDot
    repeat (first | exact ⟨_, rfl⟩ | apply head_append)
  · exact last_append rfl
  · simp only [foundNameDot, List.mem_append, not_or]
    have hf : '`' ∉ focusSize f ∧ '`' ∉ focusAttrs f := by revert f; decide
    refine ⟨⟨⟨⟨⟨⟨⟨⟨⟨⟨⟨⟨⟨⟨?_, no_tick (clean_key n)⟩, no_tick h1⟩, ?_⟩, no_tick (clean_raw n)⟩, no_tick h2⟩, ?_⟩, lower_tick (clean_key n)⟩, ?_⟩, ?_⟩, ?_⟩, hf.1⟩, ?_⟩, hf.2⟩, ?_⟩
    all_goals first | decide | (cases k <;> decide)

theorem raw_shape {s attrs : Str} (h : SubLike s) (ha : '`' ∉ attrs) : NodeText (subnameRaw ⟨s⟩ attrs) := by
  refine nodeText_of ?_ ?_ ?_
  · unfold subnameRaw
    repeat (first | exact ⟨_, rfl⟩ | apply head_append)
  · exact last_append rfl
  · simp only [subnameRaw, List.mem_append, not_or]
    refine ⟨⟨⟨⟨⟨⟨?_, no_tick (clean_sub h).upper⟩, ?_⟩, no_tick (clean_sub h)⟩, ?_⟩, ha⟩, ?_⟩ <;> decide

theorem html_inline {n u c t : Str} {b : Bool} {h : Option Str} (h1 : Clean n) (h2 : Clean u) (h3 : '\n' ∉ c) (h4 : '\n' ∉ t) (h5 : ∀ y, h = some y → Clean y) :
    Inline (nameHtml n u c b t h) := by
  refine ⟨⟨_, rfl⟩, ?_⟩
  have hb : '\n' ∉ (if b then c!"font-weight: bold; " else c!"font-style: italic; ") := by revert b; decide
  have h1 := no_nl h1
  have h2 := no_nl h2
  cases h with
  | none =>
    simp only [nameHtml, List.mem_append, not_or]
    repeat' apply And.intro
    all_goals first | assumption | decide
  | some y =>
    have h5 := no_nl (h5 y rfl)
    simp only [nameHtml, List.mem_append, not_or]
    repeat' apply And.intro
    all_goals first | assumption | decide

theorem hex_nl (k : TermColor) : '\n' ∉ hex k := by cases k <;> decide

theorem nameMd_inline {p : Project} {n : Name} {sub : Option Str} (hs : ∀ y, sub = some y → SubLike y) {o : Str} (h : p.nameMd n (sub.map SubName.mk) = .ok o) : Inline o := by
  unfold Project.nameMd at h
  have hk := no_nl (clean_key n)
  cases hg : p.artifacts.get? n with
  | none =>
    rw [hg] at h
    cases h
    exact html_inline (clean_raw n) clean_nil (by decide) (by rw [List.mem_append, not_or]; exact ⟨hk, by decide⟩) (by intro y e; cases e)
  | some a =>
    obtain ⟨k, _, hk2⟩ := nameColor_of hg
    rw [hg] at h
    cases sub with
    | none =>
      simp only [Option.map_none, hk2] at h
      cases h
      exact html_inline (clean_raw n) clean_nil (hex_nl k) hk (by intro y e; cases e; exact clean_key n)
    | some x =>
      have hx := clean_sub (hs x rfl)
      have hu : '\n' ∉ (SubName.mk x).keyStr := no_nl hx.upper
      simp only [Option.map_some, hk2] at h
      split_ifs at h
      · cases h
        exact html_inline (clean_raw n) hx (hex_nl k) (by rw [List.mem_append, not_or]; exact ⟨hk, hu⟩) (by intro y e; cases e; exact clean_key n)
      · cases h
        exact html_inline (clean_raw n) hx (by decide) (by simp only [List.mem_append, not_or]; exact ⟨⟨hk, hu⟩, by decide⟩) (by intro y e; cases e)

theorem fullnameDot_shape {p : Project} {n : Name} {sub : Option Str} (hs : ∀ y, sub = some y → SubLike y) {f : Bool} {o : Str}
    (h : p.fullnameDot n (sub.map SubName.mk) f = .ok o) : NodeText o := by
  unfold Project.fullnameDot at h
  cases hg : p.artifacts.get? n with
  | none => rw [hg] at h; cases h; exact dne_shape n hs
  | some a =>
    obtain ⟨k, _, hk2⟩ := nameColor_of hg
    rw [hg] at h
    simp only [hk2] at h
    split_ifs at h
    · cases h; exact found_shape n hs f k
    · cases h; exact dne_shape n hs

theorem subnameDot_shape {p : Project} {parent s : Str} (hs : SubLike s) {o : Str} (h : p.subnameDot parent ⟨s⟩ = .ok o) : NodeText o := by
  unfold Project.subnameDot at h
  split at h
  · cases h
  · cases h; exact raw_shape hs (by decide)
  · split at h
    · cases h
    · cases h; exact raw_shape hs (by decide)
    · cases h; exact raw_shape hs (by decide)

theorem digit_nl (n : Nat) : '\n' ∉ showNat n := fun h => absurd (showNat_digit h) (by decide)

theorem sub_inline {F : ExportLibs} {p : Project} {parent s : Str} (hs : SubLike s) (h1 : ∀ loc, Implemented p parent s loc → '\n' ∉ loc.file)
    (h2 : ∀ loc fmt u, Implemented p parent s loc → p.settings.codeUrl = some fmt →
      F.strfmt fmt (trimBase p.settings.base loc.file) (showNat (loc.line + 1)) = some u → '\n' ∉ u)
    {o : Str} (h : SubShown F (pageMd p) parent s o) : Inline o := by
  have hn := no_nl (clean_sub hs)
  by_cases hi : ∃ loc, Implemented p parent s loc
  · obtain ⟨loc, hi⟩ := hi
    obtain ⟨ha, hb⟩ := h.1 loc hi
    have hf := h1 loc hi
    cases hu : p.settings.codeUrl with
    | none =>
      rw [ha hu]
      refine ⟨⟨_, rfl⟩, ?_⟩
      simp only [List.mem_append, not_or]
      refine ⟨⟨⟨⟨⟨⟨?_, hf⟩, ?_⟩, digit_nl _⟩, ?_⟩, hn⟩, ?_⟩ <;> decide
    | some fmt =>
      obtain ⟨u, e, rfl⟩ := hb fmt hu
      have := h2 loc fmt u hi hu e
      refine ⟨⟨_, rfl⟩, ?_⟩
      simp only [List.mem_append, not_or]
      refine ⟨⟨⟨⟨⟨⟨⟨⟨?_, hf⟩, ?_⟩, digit_nl _⟩, ?_⟩, this⟩, ?_⟩, hn⟩, ?_⟩ <;> decide
  · rw [h.2 (fun loc hl => hi ⟨loc, hl⟩)]
    refine ⟨⟨_, rfl⟩, ?_⟩
    simp only [List.mem_append, not_or]
    refine ⟨⟨?_, hn⟩, ?_⟩ <;> decide

theorem node_shape {md : SerMd} {parent : Str} {x : Piece} {o : Str} (hx : Piece.Fine x) (hg : ∀ a b, x ≠ .graph a b)
    (h : Gives (md.dotRepl parent) x (.ok o)) : NodeOut x o := by
  cases x with
  | plain c => cases h; rfl
  | graph a b => exact absurd rfl (hg a b)
  | sub s =>
    obtain ⟨m, ho, h⟩ := h
    cases m with
    | ref m => cases ho
    | dot m => cases ho
    | sub m =>
      have ho : Caps.get m.2.2 1 = some s := ho
      have hs' : SubName.fromStr s = .ok ⟨s⟩ := hx
      have e : md.dotRepl parent (.sub m) = md.project.subnameDot parent ⟨s⟩ := by
        simp only [SerMd.dotRepl, ho, subnameOf, hs']; rfl
      rw [e] at h
      exact subnameDot_shape hx h.symm
  | ref n sub =>
    obtain ⟨m, ho, h⟩ := h
    cases m with
    | sub m => cases ho
    | dot m => cases ho
    | ref m =>
      obtain ⟨h1, h2⟩ : Caps.get m.2.2 1 = some n ∧ Caps.get m.2.2 2 = sub := ho
      rcases refOf_eq hx.1 hx.2 h1 h2 with ⟨name, hn, e⟩ | ⟨hp, e⟩
      · have e2 : md.dotRepl parent (.ref m) = md.project.fullnameDot name (sub.map SubName.mk) true := by simp only [SerMd.dotRepl, e]; rfl
        rw [e2] at h
        exact fullnameDot_shape hx.2 h.symm
      · have e2 : md.dotRepl parent (.ref m) = .panic := by simp only [SerMd.dotRepl, e]; rfl
        rw [e2] at h; cases h

theorem gives_all {f : ReplMatch → Res Unit Str} {ps : List Piece} {rs : List (Res Unit Str)} {os : List Str} (h : List.Forall₂ (Gives f) ps rs)
    (h2 : List.Forall₂ (fun r o => r = .ok o) rs os) : List.Forall₂ (fun x o => Gives f x (.ok o)) ps os := by
  induction h generalizing os with
  | nil => cases h2; exact .nil
  | cons h1 _ ih =>
    cases h2 with
    | cons e h2 => subst e; exact .cons h1 (ih h2)

theorem piece_shape {F : ExportLibs} {p : Project} {parent : Str} (hl : OneLine F p parent) {x : Piece} {o : Str} (hx : Piece.Fine x)
    (hs : PieceShown F (pageMd p) parent x o) (h : Gives ((pageMd p).repl F parent) x (.ok o)) : TextOut x o := by
  cases x with
  | plain c => cases h; rfl
  | sub s => exact sub_inline hx (hl.1 s) (hl.2 s) hs
  | ref n sub =>
    obtain ⟨m, ho, h⟩ := h
    cases m with
    | sub m => cases ho
    | dot m => cases ho
    | ref m =>
      obtain ⟨h1, h2⟩ : Caps.get m.2.2 1 = some n ∧ Caps.get m.2.2 2 = sub := ho
      rcases refOf_eq hx.1 hx.2 h1 h2 with ⟨name, hn, e⟩ | ⟨hp, e⟩
      · have e2 : (pageMd p).repl F parent (.ref m) = p.nameMd name (sub.map SubName.mk) := by simp only [SerMd.repl, e]; rfl
        rw [e2] at h
        exact nameMd_inline hx.2 h.symm
      · have e2 : (pageMd p).repl F parent (.ref m) = .panic := by simp only [SerMd.repl, e]; rfl
        rw [e2] at h; cases h
  | graph head body =>
    obtain ⟨m, ho, h⟩ := h
    cases m with
    | sub m => cases ho
    | ref m => cases ho
    | dot m =>
      obtain ⟨rest, rfl⟩ : ∃ rest, m = dotMatch head body rest := ho
      obtain ⟨t, rest', hg⟩ := hx
      obtain ⟨qs, rs, hc, hf, e⟩ := replaceAll_cut ((pageMd p).dotRepl parent) body.length true body (le_refl _)
      have e1 : (pageMd p).repl F parent (.dot (dotMatch head body rest)) = (do
        let d ← replaceAll ((pageMd p).dotRepl parent) body.length true body
        pure (head ++ c!"\n" ++ d ++ c!"\n" ++ c!"```")) := rfl
      rw [e1, e] at h
      cases hd : joined rs with
      | err e => rw [hd] at h; cases h
      | panic => rw [hd] at h; cases h
      | ok d =>
        rw [hd] at h
        obtain ⟨os, ho, rfl⟩ := joined_ok.1 hd
        refine ⟨qs, os, hc, ?_, ?_⟩
        · exact forall₂_imp_mem (gives_all hf ho) fun x hx o h => node_shape (cut_fine hc x hx) (fun a b e => no_inner_graph hg hc a b (e ▸ hx)) h
        · cases h; simp

theorem final_drawn {B : Browser} {F : ExportLibs} {p : Project} {parent : Str} {x : Piece} {o f : Str} (hs : PieceShown F (pageMd p) parent x o) (h : Final B x o f) :
    PieceDrawn B F p parent x f := by
  cases x with
  | plain c => cases h; exact hs
  | sub s => cases h; exact hs
  | ref n sub => cases h; exact hs
  | graph head body =>
    obtain ⟨qs, ns, w, d, hc, _, ho, he, hw, rfl⟩ := h
    obtain ⟨qs', ns', hc', hn, ho'⟩ := hs
    have e : ns'.flatten = ns.flatten := by
      have := ho'.symm.trans ho
      simp only [pageMd] at this
      simpa using this
    exact ⟨qs', ns', w, d, hc', hn, by rw [e]; exact he, hw, rfl⟩

theorem finals_drawn {B : Browser} {F : ExportLibs} {p : Project} {parent : Str} {ps : List Piece} {os fs : List Str} (hs : List.Forall₂ (PieceShown F (pageMd p) parent) ps os)
    (h : List.Forall₂ (fun x f => Final B x.1 x.2 f) (ps.zip os) fs) : List.Forall₂ (PieceDrawn B F p parent) ps fs := by
  induction hs generalizing fs with
  | nil => cases h; exact .nil
  | cons h1 _ ih =>
    cases h with
    | cons h2 h3 => exact .cons (final_drawn h1 h2) (ih h3)

theorem replace_drawn (B : Browser) {F : ExportLibs} {p : Project} (R : Readable p) {parent text out : Str} (hl : OneLine F p parent)
    (ht : ∀ ps a b, Cut true text ps → Piece.graph a b ∈ ps → NoTickRef b) (h : (pageMd p).replace F parent text = .ok out) :
    ∃ ps fs, Cut true text ps ∧ List.Forall₂ (PieceDrawn B F p parent) ps fs ∧ B.drawGraphs out = fs.flatten := by
  obtain ⟨ps, rs, hc, hf, e⟩ := replaceAll_cut ((pageMd p).repl F parent) text.length true text (le_refl _)
  unfold SerMd.replace at h
  rw [e] at h
  obtain ⟨os, ho, rfl⟩ := joined_ok.1 h
  have hb : List.Forall₂ (fun x o => PieceShown F (pageMd p) parent x o ∧ TextOut x o) ps os := by
    refine forall₂_imp_mem (gives_all hf ho) fun x hx o h => ?_
    have hfine := cut_fine hc x hx
    have hs : PieceShown F (pageMd p) parent x o := by
      rcases piece_gives (md := pageMd p) R parent hfine h with ⟨o', e, hs, _⟩ | ⟨e, _⟩
      · cases e; exact hs
      · cases e
    exact ⟨hs, piece_shape hl hfine hs h⟩
  obtain ⟨fs, h1, h2⟩ := go_text B hc (hb.imp fun _ _ h => h.2) (fun a b => ht ps a b hc) (n := os.flatten.length) (le_refl _)
  exact ⟨ps, fs, hc, finals_drawn (hb.imp fun _ _ h => h.1) h1, h2⟩

end Web
end Art
