import Verif.Lemmas.Export
import Verif.Props.Dot

/-! Helper lemmas: what is shown for each piece of a text. -/

namespace Art
open Spec Spec.Export Spec.Dot

variable {p : Project}

theorem subRaw_mk (sub : Option Str) : subRaw (sub.map SubName.mk) = sub.getD [] := by cases sub <;> rfl

theorem subKey_mk (sub : Option Str) : subKey (sub.map SubName.mk) = upper (sub.getD []) := by cases sub <;> rfl

/-! ## references -/

theorem nameMd_shown (R : Readable p) {s : Str} {n : Name} (hn : Name.fromStr s = .ok n) {sub : Option Str} (hs : ∀ y, sub = some y → SubLike y) :
    ∃ out, p.nameMd n (sub.map SubName.mk) = .ok out ∧ RefShown p s sub out := by
  have hraw := Name.raw_of_fromStr hn
  have hkey : n.keyStr = upper s := by rw [n.keyStr_eq, hraw]
  have cs : Clean s := by rw [← hraw]; exact clean_raw n
  have cu := clean_getD hs
  unfold Project.nameMd
  by_cases ht : NoTarget (arts p) n (sub.map SubName.mk)
  · cases hg : p.artifacts.get? n with
    | none =>
      refine ⟨_, rfl, n, hn, fun h => absurd ht h, fun _ => ?_⟩
      have := link_missing (name := n.raw) (sub := []) (t := n.keyStr) (by rw [List.append_nil]; exact clean_raw n) (clean_key n)
      refine ⟨this.1, this.2.2.1, fun ⟨a, ha, e⟩ => absurd e ((R.none n).1 hg a ha), fun _ => ⟨?_, ?_⟩⟩
      · rw [this.2.2.2, List.append_nil, hraw]
      · rw [this.2.1, hkey]
    | some a =>
      obtain ⟨ha, hk⟩ := (R.some n a).1 hg
      rcases ht with h | ⟨b, hb, hkb, t, e, hd⟩
      · exact absurd hk (h a ha)
      · cases sub with
        | none => cases e
        | some x =>
          cases e
          have : b = a := by rw [(R.some n b).2 ⟨hb, hkb⟩] at hg; exact Option.some.inj hg
          subst this
          obtain ⟨y, hy, rfl⟩ := List.mem_map.1 hb
          have hc : ISet.contains y.2.subnames (SubName.mk x) = false := by
            rw [Bool.eq_false_iff]
            exact fun h => hd ((R.subs y hy _).1 h)
          refine ⟨_, by simp only [Option.map_some, hc]; rfl, n, hn, fun h => absurd (Or.inr ⟨_, hb, hkb, _, rfl, hd⟩) h, fun _ => ?_⟩
          have := link_missing (name := n.raw) (sub := x) (t := n.keyStr ++ upper x) ((clean_raw n).append cu) ((clean_key n).append cu.upper)
          refine ⟨this.1, this.2.2.1, fun _ => ⟨?_, ?_⟩, fun h => absurd hkb (h _ hb)⟩
          · rw [show SubName.keyStr ⟨x⟩ = upper x from rfl, this.2.2.2, hraw]; rfl
          · rw [show SubName.keyStr ⟨x⟩ = upper x from rfl, this.2.1, hkey]; rfl
  · obtain ⟨a, hg, hsub⟩ := (R.target n _).1 ht
    obtain ⟨ha, hk⟩ := (R.some n a).1 hg
    obtain ⟨k, hk1, hk2⟩ := nameColor_of hg
    rw [hg]
    cases sub with
    | none =>
      refine ⟨nameHtml n.raw [] (hex k) true n.keyStr (some n.keyStr), by simp only [Option.map_none, hk2]; rfl, n, hn, fun _ => ?_, fun h => absurd h ht⟩
      have := link_found (name := n.raw) (sub := []) (t := n.keyStr) (h := n.keyStr) k (by rw [List.append_nil]; exact clean_raw n) (clean_key n) (clean_key n)
      refine ⟨by rw [this.1, hkey], by rw [this.2.2.2, hraw]; rfl, by rw [this.2.1, hkey]; simp [upper], a, ha, hk, _, hk1, this.2.2.1⟩
    | some x =>
      have hc : ISet.contains a.subnames (SubName.mk x) = true := hsub
      refine ⟨nameHtml n.raw x (hex k) true (n.keyStr ++ upper x) (some n.keyStr), by simp only [Option.map_some, hc, hk2, if_true]; rfl, n, hn, fun _ => ?_, fun h => absurd h ht⟩
      have := link_found (name := n.raw) (sub := x) (t := n.keyStr ++ upper x) (h := n.keyStr) k ((clean_raw n).append cu) ((clean_key n).append cu.upper) (clean_key n)
      refine ⟨by rw [this.1, hkey], by rw [this.2.2.2, hraw]; rfl, by rw [this.2.1, hkey]; rfl, a, ha, hk, _, hk1, this.2.2.1⟩

theorem fullnameDot_shown (R : Readable p) {parent s : Str} {n : Name} (hn : Name.fromStr s = .ok n) {sub : Option Str} (hs : ∀ y, sub = some y → SubLike y) :
    ∃ out, p.fullnameDot n (sub.map SubName.mk) true = .ok out ∧ NodeShown p parent (.ref s sub) out := by
  have hraw := Name.raw_of_fromStr hn
  have hkey : n.keyStr = upper s := by rw [n.keyStr_eq, hraw]
  have cu := clean_getD hs
  have pr : Plain (subRaw (sub.map SubName.mk)) := by rw [subRaw_mk]; exact cu.plain
  have pk : Plain (subKey (sub.map SubName.mk)) := by rw [subKey_mk]; exact cu.upper.plain
  unfold Project.fullnameDot
  by_cases ht : NoTarget (arts p) n (sub.map SubName.mk)
  · have hd : p.fullnameDot n (sub.map SubName.mk) true = .ok (dneNameDot n (sub.map SubName.mk)) := by
      unfold Project.fullnameDot
      cases hg : p.artifacts.get? n with
      | none => rfl
      | some a =>
        have : (sub.map SubName.mk).all (fun s => a.subnames.contains s) = false := by
          rw [Bool.eq_false_iff]
          exact fun h => (R.target n _).2 ⟨a, hg, h⟩ ht
        simp only [this]; rfl
    refine ⟨_, hd, n, hn, fun h => absurd ht h, fun _ => ?_⟩
    have := (chunk_dne n (sub.map SubName.mk) pr pk) []
    rw [List.append_nil, subKey_mk, subRaw_mk, hkey, hraw] at this
    rw [this]; rfl
  · obtain ⟨a, hg, hsub⟩ := (R.target n _).1 ht
    obtain ⟨ha, hk⟩ := (R.some n a).1 hg
    obtain ⟨k, hk1, hk2⟩ := nameColor_of hg
    rw [hg]
    refine ⟨foundNameDot n (sub.map SubName.mk) true (hex k), by simp only [hsub, hk2, if_true]; rfl, n, hn, fun _ => ⟨a, ha, hk, _, hk1, ?_⟩, fun h => absurd h ht⟩
    have := (chunk_found n (sub.map SubName.mk) pr pk true (plain_hex k) (plain_lower n)) []
    rw [List.append_nil, subKey_mk, subRaw_mk, hkey, hraw, lower_upper] at this
    rw [this]; rfl

/-! ## subnames -/

theorem getImplSub_spec (R : Readable p) (parent : Str) {s : Str} (hs : SubLike s) (hp : ¬ Panics parent) :
    (∃ loc, p.getImplSub parent s = .ok loc ∧ ∀ l, Implemented p parent s l ↔ l = loc) ∨
    (p.getImplSub parent s = .err () ∧ ∀ l, ¬ Implemented p parent s l) := by
  unfold Project.getImplSub
  cases hn : Name.fromStr parent with
  | panic => exact absurd hn hp
  | err e =>
    right
    refine ⟨rfl, ?_⟩
    rintro l ⟨n, t, _, hk, _⟩
    obtain ⟨m, hm, _⟩ := name_of_key hk
    rw [hn] at hm; cases hm
  | ok n =>
    have hk : ∀ m : Name, m.keyStr = upper parent ↔ key m = key n := by
      intro m
      rw [Name.key_eq_iff, n.keyStr_eq, Name.raw_of_fromStr hn]
    have hget : ∀ l, Implemented p parent s l ↔ ∃ c, p.codeImpls.get? n = some c ∧ c.secondary.get? ⟨s⟩ = some l := by
      intro l
      constructor
      · rintro ⟨m, t, ⟨c, hc, ht⟩, hm, ht'⟩
        refine ⟨c, ?_, ?_⟩
        · rw [← IMap.get?_congr _ ((hk m).1 hm)]
          exact IMap.get?_of_mem R.code hc
        · rw [← IMap.get?_congr _ (show key t = key (SubName.mk s) from ht')]
          exact IMap.get?_of_mem (R.secondary _ hc) ht
      · rintro ⟨c, hc, hl⟩
        obtain ⟨m, e, hm⟩ := IMap.mem_of_get? hc
        obtain ⟨t, e', ht⟩ := IMap.mem_of_get? hl
        exact ⟨m, t, ⟨c, hm, ht⟩, (hk m).2 e, e'⟩
    have hs' : SubName.fromStr s = .ok ⟨s⟩ := hs
    cases hc : p.codeImpls.get? n with
    | none =>
      right
      refine ⟨by simp only [hc], fun l h => ?_⟩
      obtain ⟨c, h, _⟩ := (hget l).1 h
      rw [hc] at h; cases h
    | some c =>
      simp only [hs']
      cases hl : c.secondary.get? ⟨s⟩ with
      | none =>
        right
        refine ⟨by simp only [hc, hl], fun l h => ?_⟩
        obtain ⟨c', h, h'⟩ := (hget l).1 h
        rw [hc] at h; cases h; rw [hl] at h'; cases h'
      | some loc =>
        left
        refine ⟨loc, by simp only [hc, hl], fun l => ?_⟩
        rw [hget]
        constructor
        · rintro ⟨c', h, h'⟩
          rw [hc] at h; cases h; rw [hl] at h'; cases h'; rfl
        · rintro rfl; exact ⟨c, hc, hl⟩

theorem subMd_shown {F : ExportLibs} {md : SerMd} (R : Readable md.project) (parent : Str) {s : Str} (hs : SubLike s) :
    (∃ o, md.subMd F parent s = .ok o ∧ SubShown F md parent s o ∧ ¬ Bad F md parent (.sub s)) ∨ (md.subMd F parent s = .panic ∧ Bad F md parent (.sub s)) := by
  by_cases hp : Panics parent
  · right
    refine ⟨?_, Or.inl hp⟩
    unfold SerMd.subMd Project.getImplSub
    rw [show Name.fromStr parent = .panic from hp]
  · unfold SerMd.subMd
    rcases getImplSub_spec R parent hs hp with ⟨loc, h1, h2⟩ | ⟨h1, h2⟩
    · simp only [h1]
      unfold SerMd.codeUrlOf
      cases hu : md.codeUrl with
      | none =>
        left
        refine ⟨_, rfl, ⟨fun l hl => ⟨fun _ => ?_, fun fmt e => (by rw [hu] at e; cases e)⟩, fun h => absurd ((h2 loc).2 rfl) (h loc)⟩, ?_⟩
        · rw [(h2 l).1 hl]; simp
        · rintro (h | ⟨l, _, fmt, e, _⟩)
          · exact hp h
          · rw [hu] at e; cases e
      | some fmt =>
        cases hf : F.strfmt fmt (trimBase md.project.settings.base loc.file) (showNat (loc.line + 1)) with
        | none =>
          right
          simp only [hf]
          exact ⟨rfl, Or.inr ⟨loc, (h2 loc).2 rfl, fmt, hu, hf⟩⟩
        | some u =>
          left
          simp only [hf]
          refine ⟨_, rfl, ⟨fun l hl => ⟨fun e => (by rw [hu] at e; cases e), fun fmt' e => ?_⟩, fun h => absurd ((h2 loc).2 rfl) (h loc)⟩, ?_⟩
          · rw [hu] at e; cases e
            rw [(h2 l).1 hl]
            exact ⟨u, hf, by simp⟩
          · rintro (h | ⟨l, hl, fmt', e, e'⟩)
            · exact hp h
            · rw [hu] at e; cases e
              rw [(h2 l).1 hl, hf] at e'; cases e'
    · left
      simp only [h1]
      refine ⟨_, rfl, ⟨fun l hl => absurd hl (h2 l), fun _ => rfl⟩, ?_⟩
      rintro (h | ⟨l, hl, _⟩)
      · exact hp h
      · exact h2 l hl

set_option maxRecDepth 4000 in
theorem chunk_subname {s attrs : Str} (hs : Clean s) (ha : ∀ r, item (List.replicate 16 ' ' ++ attrs ++ r) = none) (hn : '\n' ∉ attrs) :
    Chunk (subnameRaw ⟨s⟩ attrs) [.node (upper s), .label s] := by
  have pk := hs.upper.plain
  have pr := hs.plain
  have h1 := Chunk.of_item (item_node (n := 12) pk.1) (by simp only [List.mem_append, List.mem_replicate, List.mem_cons]; simp [pk.2.1])
  have h2 := Chunk.of_item (item_label (n := 16) pr.1) (by simp only [List.mem_append, List.mem_replicate, List.mem_cons]; simp [pr.2.1])
  have h3 := Chunk.of_item (ha c!";") (by simp only [List.mem_append, List.mem_replicate]; simp [hn])
  have h := (((((((chunk_none (t := []) rfl (by simp)).append (chunk_none (t := c!"        {") (by decide) (by decide))).append h1).append h2).append
    (chunk_none (t := c!"                fontsize=12; margin=0.15;") (by decide) (by decide))).append
    (chunk_none (t := c!"                shape=cds;") (by decide) (by decide))).append h3).append
    ((chunk_none (t := c!"            ]") (by decide) (by decide)).append
    ((chunk_none (t := c!"        }") (by decide) (by decide)).append (Chunk.spaces 8)))
  intro r
  have h' := h r
  simp only [Option.toList, List.nil_append, List.append_assoc, List.cons_append, List.append_nil] at h'
  simp only [subnameRaw, List.replicate, List.append_assoc, List.cons_append, List.nil_append] at h' ⊢
  exact h'

theorem after_chars {m : Char} {ms k s : Str} (h : m ∉ k) : after (m :: ms) (k ++ s) = after (m :: ms) s := by
  induction k with
  | nil => rfl
  | cons c k ih =>
    have hc : (m == c) = false := by
      rw [beq_eq_false_iff_ne]; rintro rfl; simp at h
    show after _ (c :: (k ++ s)) = _
    rw [after]
    simp [List.isPrefixOf, hc]
    exact ih (fun hm => h (by simp [hm]))

set_option maxRecDepth 4000 in
theorem subname_colour {s c : Str} (hs : Clean s) (hc : '"' ∉ c) : nodeColour (subnameRaw ⟨s⟩ (c!"penwidth=1.5; fontcolor=\"" ++ c ++ c!"\"")) = some c := by
  have a1 : after c!"fontcolor=\"" (upper s ++ '"' :: (c!" [\n                label=\"" ++ (s ++ '"' :: (c!";\n                fontsize=12; margin=0.15;\n                shape=cds;\n                penwidth=1.5; fontcolor=\"" ++ (c ++ '"' :: c!";\n            ]\n        }\n        "))))) =
      some (c ++ '"' :: c!";\n            ]\n        }\n        ") := by
    refine Eq.trans (after_skip (u := c!"fontcolor") (x := '=') (y := '"') (v := c!"\"") (by unfold Clean; decide) hs.upper (by decide) (by decide) (by decide)) ?_
    refine Eq.trans (after_chars (by decide)) ?_
    refine Eq.trans (after_skip (u := c!"fontcolor") (x := '=') (y := '"') (v := c!"\"") (by unfold Clean; decide) hs (by decide) (by decide) (by decide)) ?_
    simp [after, List.isPrefixOf]
  unfold nodeColour
  refine Eq.trans (congrArg (Option.map _) (Eq.trans ?_ a1)) (by rw [Option.map_some, till_append hc])
  unfold subnameRaw
  have : ∀ x y : Str, after c!"fontcolor=\"" (c!"\n        {\n            \"" ++ x) = after c!"fontcolor=\"" x := fun x _ => after_chars (by decide)
  refine Eq.trans (congrArg _ ?_) (this _ [])
  simp [SubName.keyStr]

theorem subnameDot_shown (R : Readable p) (parent : Str) {s : Str} (hs : SubLike s) :
    (∃ o, p.subnameDot parent ⟨s⟩ = .ok o ∧ NodeShown p parent (.sub s) o ∧ ¬ BadNode parent (.sub s)) ∨
    (p.subnameDot parent ⟨s⟩ = .panic ∧ BadNode parent (.sub s)) := by
  by_cases hp : Panics parent
  · right
    refine ⟨?_, hp⟩
    unfold Project.subnameDot
    rw [show Name.fromStr parent = .panic from hp]
  · left
    have cs := clean_sub hs
    unfold Project.subnameDot
    cases hn : Name.fromStr parent with
    | panic => exact absurd hn hp
    | err e =>
      refine ⟨_, rfl, ⟨?_, fun ⟨l, n, t, _, hk, _⟩ => ?_, fun n h => by rw [hn] at h; cases h⟩, hp⟩
      · have := chunk_subname (attrs := c!"style=filled; fillcolor=\"#DCDEE2\"") cs (fun r => by rw [List.append_assoc]; exact (item_of (by decide)).trans (by simp [itemOf, attr])) (by decide) []
        rw [List.append_nil] at this
        rw [this]; rfl
      · obtain ⟨m, hm, _⟩ := name_of_key hk
        rw [hn] at hm; cases hm
    | ok n =>
      have e : n.raw = parent := Name.raw_of_fromStr hn
      simp only
      rw [e]
      have hit : ∀ c : Str, '\n' ∉ c → items (subnameRaw ⟨s⟩ (c!"penwidth=1.5; fontcolor=\"" ++ c ++ c!"\"")) = [.node (upper s), .label s] := by
        intro c hc
        have := chunk_subname (attrs := c!"penwidth=1.5; fontcolor=\"" ++ c ++ c!"\"") cs
          (fun r => by rw [List.append_assoc]; exact (item_of (by decide)).trans (by simp [itemOf, attr])) (by simp [hc]) []
        rw [List.append_nil] at this
        rw [this]; rfl
      rcases getImplSub_spec R parent hs hp with ⟨loc, h1, h2⟩ | ⟨h1, h2⟩
      · simp only [h1]
        refine ⟨_, rfl, ⟨hit c!"#0074D9" (by decide), fun _ => subname_colour cs (c := c!"#0074D9") (by decide), fun _ _ h => absurd ((h2 loc).2 rfl) (h loc)⟩, hp⟩
      · simp only [h1]
        refine ⟨_, rfl, ⟨hit c!"#FF4136" (by decide), fun ⟨l, h⟩ => absurd h (h2 l), fun _ _ _ => subname_colour cs (c := c!"#FF4136") (by decide)⟩, hp⟩

/-! ## texts -/

theorem joined_pieces {S : Piece → Str → Prop} {B : Piece → Prop} {ps : List Piece} {rs : List (Res Unit Str)}
    (h : List.Forall₂ (fun x r => (∃ o, r = .ok o ∧ S x o ∧ ¬ B x) ∨ (r = .panic ∧ B x)) ps rs) :
    (∃ os, joined rs = .ok os.flatten ∧ List.Forall₂ S ps os ∧ ∀ x ∈ ps, ¬ B x) ∨ (joined rs = .panic ∧ ∃ x ∈ ps, B x) := by
  induction h with
  | nil => exact Or.inl ⟨[], rfl, .nil, by simp⟩
  | cons h1 _ ih =>
    rcases h1 with ⟨o, rfl, hs, hb⟩ | ⟨rfl, hb⟩
    · rcases ih with ⟨os, e, h2, h3⟩ | ⟨e, x, hx, hb'⟩
      · refine Or.inl ⟨o :: os, by simp only [joined, e]; rfl, .cons hs h2, fun x hx => ?_⟩
        rcases List.mem_cons.1 hx with rfl | hx
        · exact hb
        · exact h3 x hx
      · exact Or.inr ⟨by simp only [joined, e]; rfl, x, by simp [hx], hb'⟩
    · exact Or.inr ⟨rfl, _, by simp, hb⟩

theorem refOf_eq {m : Match} {n : Str} {sub : Option Str} (hn : NameLike n) (hs : ∀ y, sub = some y → SubLike y) (h1 : Caps.get m.2.2 1 = some n) (h2 : Caps.get m.2.2 2 = sub) :
    (∃ name, Name.fromStr n = .ok name ∧ refOf m = .ok (name, sub.map SubName.mk)) ∨ (Panics n ∧ refOf m = .panic) := by
  unfold refOf
  simp only [h1, h2]
  have e : (match sub with | none => pure none | some x => do let y ← subnameOf x; pure (some y) : Res Unit (Option SubName)) = .ok (sub.map SubName.mk) := by
    cases sub with
    | none => rfl
    | some x =>
      have : SubName.fromStr x = .ok ⟨x⟩ := hs x rfl
      simp only [subnameOf, this]; rfl
  cases hf : Name.fromStr n with
  | err e => exact absurd hf (hn e)
  | panic =>
    right
    refine ⟨hf, ?_⟩
    cases sub with
    | none => simp only [nameOf, hf]; rfl
    | some x =>
      have : SubName.fromStr x = .ok ⟨x⟩ := hs x rfl
      simp only [subnameOf, this, nameOf, hf]; rfl
  | ok name =>
    left
    refine ⟨name, rfl, ?_⟩
    cases sub with
    | none => simp only [nameOf, hf]; rfl
    | some x =>
      have : SubName.fromStr x = .ok ⟨x⟩ := hs x rfl
      simp only [subnameOf, this, nameOf, hf]; rfl

/-- Pieces as they come from a text. -/
def Piece.Fine : Piece → Prop
  | .plain _ => True
  | .sub s => SubLike s
  | .ref n s => NameLike n ∧ ∀ y, s = some y → SubLike y
  | .graph head body => ∃ t rest, Graph t head body rest

theorem first_fine {bol : Bool} {s r : Str} {x : Piece} (h : First bol s x r) : Piece.Fine x := by
  cases h with
  | sub h => exact h
  | ref h1 h2 => exact ⟨h1, h2⟩
  | graph h => exact ⟨_, _, h⟩

theorem cut_fine {bol : Bool} {s : Str} {ps : List Piece} (h : Cut bol s ps) : ∀ x ∈ ps, Piece.Fine x := by
  induction ps generalizing bol s with
  | nil => simp
  | cons y ps ih =>
    intro x hx
    rcases h.inv with ⟨r, hf, hc⟩ | ⟨c, t, rfl, rfl, hn, hc⟩
    · rcases List.mem_cons.1 hx with rfl | hx
      · exact first_fine hf
      · exact ih hc x hx
    · rcases List.mem_cons.1 hx with rfl | hx
      · trivial
      · exact ih hc x hx

theorem node_gives {md : SerMd} (R : Readable md.project) (parent : Str) {x : Piece} {r : Res Unit Str} (hx : Piece.Fine x) (hg : ∀ a b, x ≠ .graph a b)
    (h : Gives (md.dotRepl parent) x r) : (∃ o, r = .ok o ∧ NodeShown md.project parent x o ∧ ¬ BadNode parent x) ∨ (r = .panic ∧ BadNode parent x) := by
  cases x with
  | plain c => exact Or.inl ⟨[c], h, rfl, fun h => h⟩
  | graph a b => exact absurd rfl (hg a b)
  | sub s =>
    obtain ⟨m, ho, rfl⟩ := h
    cases m with
    | ref m => cases ho
    | dot m => cases ho
    | sub m =>
      have ho : Caps.get m.2.2 1 = some s := ho
      have hs' : SubName.fromStr s = .ok ⟨s⟩ := hx
      have e : md.dotRepl parent (.sub m) = md.project.subnameDot parent ⟨s⟩ := by
        simp only [SerMd.dotRepl, ho, subnameOf, hs']; rfl
      rw [e]
      exact subnameDot_shown R parent hx
  | ref n sub =>
    obtain ⟨m, ho, rfl⟩ := h
    cases m with
    | sub m => cases ho
    | dot m => cases ho
    | ref m =>
      obtain ⟨h1, h2⟩ : Caps.get m.2.2 1 = some n ∧ Caps.get m.2.2 2 = sub := ho
      rcases refOf_eq hx.1 hx.2 h1 h2 with ⟨name, hn, e⟩ | ⟨hp, e⟩
      · left
        obtain ⟨o, h3, h4⟩ := fullnameDot_shown R (parent := parent) hn hx.2
        refine ⟨o, by simp only [SerMd.dotRepl, e]; exact h3, h4, fun h => ?_⟩
        rw [show Name.fromStr n = .panic from h] at hn; cases hn
      · right
        exact ⟨by simp only [SerMd.dotRepl, e]; rfl, hp⟩

theorem piece_gives {F : ExportLibs} {md : SerMd} (R : Readable md.project) (parent : Str) {x : Piece} {r : Res Unit Str} (hx : Piece.Fine x)
    (h : Gives (md.repl F parent) x r) : (∃ o, r = .ok o ∧ PieceShown F md parent x o ∧ ¬ Bad F md parent x) ∨ (r = .panic ∧ Bad F md parent x) := by
  cases x with
  | plain c => exact Or.inl ⟨[c], h, rfl, fun h => h⟩
  | sub s =>
    obtain ⟨m, ho, rfl⟩ := h
    cases m with
    | ref m => cases ho
    | dot m => cases ho
    | sub m =>
      have ho : Caps.get m.2.2 1 = some s := ho
      have e : md.repl F parent (.sub m) = md.subMd F parent s := by simp only [SerMd.repl, ho]
      rw [e]
      exact subMd_shown R parent hx
  | ref n sub =>
    obtain ⟨m, ho, rfl⟩ := h
    cases m with
    | sub m => cases ho
    | dot m => cases ho
    | ref m =>
      obtain ⟨h1, h2⟩ : Caps.get m.2.2 1 = some n ∧ Caps.get m.2.2 2 = sub := ho
      rcases refOf_eq hx.1 hx.2 h1 h2 with ⟨name, hn, e⟩ | ⟨hp, e⟩
      · left
        obtain ⟨o, h3, h4⟩ := nameMd_shown R hn hx.2
        refine ⟨o, by simp only [SerMd.repl, e]; exact h3, h4, fun h => ?_⟩
        rw [show Name.fromStr n = .panic from h] at hn; cases hn
      · right
        exact ⟨by simp only [SerMd.repl, e]; rfl, hp⟩
  | graph head body =>
    obtain ⟨m, ho, rfl⟩ := h
    cases m with
    | sub m => cases ho
    | ref m => cases ho
    | dot m =>
      obtain ⟨rest, rfl⟩ : ∃ rest, m = dotMatch head body rest := ho
      obtain ⟨t, rest', hg⟩ := hx
      obtain ⟨qs, rs, hc, hf, e⟩ := replaceAll_cut (md.dotRepl parent) body.length true body (le_refl _)
      have hj := joined_pieces (forall₂_imp_mem hf fun x hx r h => node_gives R parent (cut_fine hc x hx) (fun a b e => no_inner_graph hg hc a b (e ▸ hx)) h)
      have e1 : md.repl F parent (.dot (dotMatch head body rest)) = (do
        let d ← replaceAll (md.dotRepl parent) body.length true body
        let fence := match md.dot with
          | .ignore => (head, c!"```")
          | .removeBraces => ([], [])
          | .replaceBraces pre post => (pre, post)
        pure (fence.1 ++ c!"\n" ++ d ++ c!"\n" ++ fence.2)) := rfl
      rw [e1, e]
      rcases hj with ⟨os, hj, h1, h2⟩ | ⟨hj, q, hq, hb⟩
      · left
        rw [hj]
        refine ⟨_, rfl, ⟨qs, os, hc, h1, ?_⟩, ?_⟩
        · cases md.dot <;> simp
        · rintro ⟨qs', hc', q, hq, hb⟩
          rw [cut_unique hc' hc] at hq
          exact h2 q hq hb
      · right
        rw [hj]
        exact ⟨rfl, qs, hc, q, hq, hb⟩

theorem replace_text {F : ExportLibs} {md : SerMd} (R : Readable md.project) (parent text : Str) :
    ∃ ps, Cut true text ps ∧
      ((∃ os, md.replace F parent text = .ok os.flatten ∧ List.Forall₂ (PieceShown F md parent) ps os ∧ ∀ x ∈ ps, ¬ Bad F md parent x) ∨
       (md.replace F parent text = .panic ∧ ∃ x ∈ ps, Bad F md parent x)) := by
  obtain ⟨ps, rs, hc, hf, e⟩ := replaceAll_cut (md.repl F parent) text.length true text (le_refl _)
  refine ⟨ps, hc, ?_⟩
  unfold SerMd.replace
  rw [e]
  exact joined_pieces (forall₂_imp_mem hf fun x hx r h => piece_gives R parent (cut_fine hc x hx) h)

/-! ## every reference is a piece -/

theorem split_at {a b c d : Str} (h : a ++ b = c ++ d) : (∃ e, c = a ++ e ∧ b = e ++ d) ∨ (∃ e, e ≠ [] ∧ a = c ++ e ∧ d = e ++ b) := by
  rcases List.append_eq_append_iff.1 h with ⟨e, h1, h2⟩ | ⟨e, h1, h2⟩
  · exact Or.inl ⟨e, h1, h2⟩
  · by_cases he : e = []
    · subst he
      left
      exact ⟨[], by simpa using h1.symm, by simpa using h2.symm⟩
    · exact Or.inr ⟨e, he, h1, h2⟩

theorem tok_overlap {b c r pre post : Str} (hc : Clean c) (h : c!"[[" ++ c ++ c!"]]" ++ r = pre ++ (c!"[[" ++ b ++ c!"]]" ++ post)) :
    pre = [] ∨ ∃ pre', r = pre' ++ (c!"[[" ++ b ++ c!"]]" ++ post) := by
  rcases split_at h with ⟨e, _, h2⟩ | ⟨e, he, h1, h2⟩
  · exact Or.inr ⟨e, h2⟩
  · left
    cases e with
    | nil => exact absurd rfl he
    | cons x e =>
      simp only [List.cons_append, List.nil_append, List.cons.injEq] at h2
      obtain ⟨rfl, h2⟩ := h2
      cases pre with
      | nil => rfl
      | cons y pre =>
        exfalso
        simp only [List.cons_append, List.nil_append, List.cons.injEq] at h1
        obtain ⟨rfl, h1⟩ := h1
        have hno : '[' ∉ c ++ c!"]]" := by
          rw [List.mem_append]
          rintro (h | h)
          · exact hc.not_mem (by decide) h
          · revert h; decide
        cases pre with
        | nil =>
          simp only [List.nil_append, List.cons.injEq, true_and] at h1
          rw [← h1] at h2
          cases c with
          | nil => simp at h2
          | cons z c =>
            simp only [List.cons_append, List.cons.injEq] at h2
            exact hno (by simp [← h2.1])
        | cons z pre =>
          simp only [List.cons_append, List.cons.injEq] at h1
          exact hno (by rw [h1.2]; simp)

theorem mem_of_split {a b c d : Str} {q : Char} (h : a ++ q :: b = c ++ d) (hq : q ∉ c) : ∃ e, a = c ++ e ∧ d = e ++ q :: b := by
  rcases split_at h with ⟨e, h1, h2⟩ | ⟨e, _, h1, h2⟩
  · cases e with
    | nil => exact ⟨[], by simpa using h1.symm, by simpa using h2.symm⟩
    | cons x e =>
      simp only [List.cons_append, List.cons.injEq] at h2
      exact absurd (by rw [h1, ← h2.1]; simp) hq
  · exact ⟨e, h1, h2⟩

theorem tok_graph {s head body rest b pre post : Str} (hg : MayGraph s head body rest) (hb : Clean b) (h : s = pre ++ (c!"[[" ++ b ++ c!"]]" ++ post)) :
    (∃ pre' post', body = pre' ++ (c!"[[" ++ b ++ c!"]]") ++ post') ∨ ∃ pre', rest = pre' ++ (c!"[[" ++ b ++ c!"]]" ++ post) := by
  obtain ⟨e, ⟨d, w, rfl, hd, hw⟩, _, _⟩ := hg
  have hbr : ∀ q : Char, nmCh q = false → q ≠ '[' → q ≠ ']' → q ∉ c!"[[" ++ b ++ c!"]]" := by
    intro q h1 h2 h3
    simp only [List.mem_append, List.mem_cons, List.not_mem_nil, or_false, not_or]
    exact ⟨⟨⟨h2, h2⟩, hb.not_mem h1⟩, h3, h3⟩
  have hhead : '[' ∉ c!"```" ++ d ++ w ++ c!"\n" := by
    simp only [List.mem_append, not_or]
    refine ⟨⟨⟨by decide, fun h => ?_⟩, fun h => ?_⟩, by decide⟩
    · have : upperC '[' ∈ upper d := List.mem_map.2 ⟨_, h, rfl⟩
      rw [hd] at this
      revert this; decide
    · have := hw _ h
      revert this; decide
  have e1 : (c!"```" ++ d ++ w ++ c!"\n") ++ (body ++ (c!"```" ++ rest)) = pre ++ (c!"[[" ++ b ++ c!"]]" ++ post) := by rw [← h, e]; simp
  have e2 : pre ++ '[' :: ('[' :: b ++ c!"]]" ++ post) = (c!"```" ++ d ++ w ++ c!"\n") ++ (body ++ (c!"```" ++ rest)) := by rw [e1]; simp
  obtain ⟨p1, _, e3⟩ := mem_of_split e2 hhead
  have e4 : body ++ (c!"```" ++ rest) = p1 ++ (c!"[[" ++ b ++ c!"]]" ++ post) := by rw [e3]; simp
  rcases split_at e4 with ⟨f, h1, h2⟩ | ⟨f, hf, h1, h2⟩
  · right
    have e5 : f ++ '[' :: ('[' :: b ++ c!"]]" ++ post) = c!"```" ++ rest := by rw [h2]; simp
    obtain ⟨g, _, hg⟩ := mem_of_split e5 (by decide)
    exact ⟨g, by rw [hg]; simp⟩
  · left
    have e5 : f ++ '`' :: (c!"``" ++ rest) = (c!"[[" ++ b ++ c!"]]") ++ post := by rw [h2]; simp
    obtain ⟨g, hg, _⟩ := mem_of_split e5 (hbr '`' (by decide) (by decide) (by decide))
    exact ⟨p1, g, by rw [h1, hg]; simp⟩

theorem piece_clean {x : Piece} (hx : Piece.Fine x) (hp : ∀ c, x ≠ .plain c) (hg : ∀ a b, x ≠ .graph a b) : ∃ b, Clean b ∧ x.src = c!"[[" ++ b ++ c!"]]" := by
  cases x with
  | plain c => exact absurd rfl (hp c)
  | graph a b => exact absurd rfl (hg a b)
  | sub s => exact ⟨s, clean_sub hx, rfl⟩
  | ref n s => exact ⟨n ++ s.getD [], (clean_name hx.1).append (clean_getD hx.2), by simp [Piece.src]⟩

theorem first_tok {x : Piece} (hx : Piece.Fine x) (hp : ∀ c, x ≠ .plain c) (hg : ∀ a b, x ≠ .graph a b) (bol : Bool) (rest : Str) : First bol (x.src ++ rest) x rest := by
  cases x with
  | plain c => exact absurd rfl (hp c)
  | graph a b => exact absurd rfl (hg a b)
  | sub s => exact .sub hx
  | ref n s => exact .ref hx.1 hx.2

theorem tok_mem {x : Piece} (hx : Piece.Fine x) (hp : ∀ c, x ≠ .plain c) (hg : ∀ a b, x ≠ .graph a b) {bol : Bool} {s pre post : Str} {ps : List Piece}
    (h : Cut bol s ps) (e : s = pre ++ (x.src ++ post)) :
    x ∈ ps ∨ ∃ head body pre' post', Piece.graph head body ∈ ps ∧ body = pre' ++ x.src ++ post' := by
  obtain ⟨b, hb, hsrc⟩ := piece_clean hx hp hg
  induction ps generalizing bol s pre with
  | nil =>
    rw [h.nil_inv, hsrc] at e
    simp at e
  | cons y ps ih =>
    have lift : (x ∈ ps ∨ ∃ head body pre' post', Piece.graph head body ∈ ps ∧ body = pre' ++ x.src ++ post') →
        (x ∈ y :: ps ∨ ∃ head body pre' post', Piece.graph head body ∈ y :: ps ∧ body = pre' ++ x.src ++ post') := by
      rintro (h | ⟨a, b, c, d, h, e⟩)
      · exact Or.inl (by simp [h])
      · exact Or.inr ⟨a, b, c, d, by simp [h], e⟩
    by_cases hpre : pre = []
    · subst hpre
      rw [List.nil_append] at e
      have hf := first_tok hx hp hg bol post
      rw [← e] at hf
      rcases h.inv with ⟨r, hf', hc⟩ | ⟨c, t, rfl, rfl, hn, hc⟩
      · rw [(first_unique hf hf').1]; simp
      · exact absurd hn (first_noPiece hf)
    · rcases h.inv with ⟨r, hf, hc⟩ | ⟨c, t, rfl, rfl, hn, hc⟩
      · cases hf with
        | sub hs =>
          rw [hsrc] at e
          rcases tok_overlap (clean_sub hs) e with h | ⟨pre', h⟩
          · exact absurd h hpre
          · exact lift (ih hc (pre := pre') (by rw [h, hsrc]))
        | @ref _ n s _ hn hs =>
          rw [hsrc, List.append_assoc c!"[["] at e
          rcases tok_overlap ((clean_name hn).append (clean_getD hs)) e with h | ⟨pre', h⟩
          · exact absurd h hpre
          · exact lift (ih hc (pre := pre') (by rw [h, hsrc]))
        | @graph s head body rest hgr =>
          rw [hsrc] at e
          rcases tok_graph hgr.1 hb e with ⟨p1, p2, h⟩ | ⟨pre', h⟩
          · exact Or.inr ⟨head, body, p1, p2, by simp, by rw [h, hsrc]⟩
          · exact lift (ih hc (pre := pre') (by rw [h, hsrc]))
      · cases pre with
        | nil => exact absurd rfl hpre
        | cons d pre =>
          simp only [List.cons_append, List.cons.injEq] at e
          exact lift (ih hc e.2)

theorem cut_exists (bol : Bool) (s : Str) : ∃ ps, Cut bol s ps := by
  obtain ⟨ps, _, h, _⟩ := replaceAll_cut (fun _ => .panic) s.length bol s (le_refl _)
  exact ⟨ps, h⟩

theorem within_tok {x : Piece} (hx : Piece.Fine x) (hp : ∀ c, x ≠ .plain c) (hg : ∀ a b, x ≠ .graph a b) (text : Str) :
    Within text x ↔ ∃ pre post, text = pre ++ x.src ++ post := by
  have hsplit : ∀ {bol : Bool} {s : Str} {ps : List Piece} {y : Piece}, Cut bol s ps → y ∈ ps → ∃ pre post, s = pre ++ y.src ++ post := by
    intro bol s ps y hc hy
    obtain ⟨l1, l2, rfl⟩ := List.append_of_mem hy
    refine ⟨l1.flatMap Piece.src, l2.flatMap Piece.src, ?_⟩
    rw [← cut_src hc]; simp
  constructor
  · rintro ⟨ps, hc, hm | ⟨head, body, qs, hm, hq, hx'⟩⟩
    · exact hsplit hc hm
    · obtain ⟨a, b, e1⟩ := hsplit hc hm
      obtain ⟨c, d, e2⟩ := hsplit hq hx'
      exact ⟨a ++ head ++ c!"\n" ++ c, d ++ c!"```" ++ b, by rw [e1, Piece.src, e2]; simp⟩
  · rintro ⟨pre, post, e⟩
    obtain ⟨ps, hc⟩ := cut_exists true text
    refine ⟨ps, hc, ?_⟩
    rcases tok_mem hx hp hg hc (by rw [e, List.append_assoc]) with h | ⟨head, body, pre', post', hm, e'⟩
    · exact Or.inl h
    · obtain ⟨qs, hq⟩ := cut_exists true body
      obtain ⟨a, t, rest, _, hgr⟩ := cut_graph_mem hc hm
      rcases tok_mem hx hp hg hq (by rw [e', List.append_assoc]) with h | ⟨head', body', _, _, hm', _⟩
      · exact Or.inr ⟨head, body, qs, hm, hq, h⟩
      · exact absurd hm' (no_inner_graph hgr hq _ _)

theorem within_ref (text n : Str) (sub : Option Str) : Within text (.ref n sub) ↔ WritesRef text n (sub.map SubName.mk) := by
  have key : ∀ (_ : NameLike n) (_ : ∀ y, sub = some y → SubLike y), Within text (.ref n sub) ↔ WritesRef text n (sub.map SubName.mk) := by
    intro h1 h2
    rw [within_tok (x := .ref n sub) ⟨h1, h2⟩ (by simp) (by simp)]
    unfold WritesRef
    have h3 : ∀ s, sub.map SubName.mk = some s → SubLike s.raw := by
      intro s e
      cases sub with
      | none => cases e
      | some y => cases e; exact h2 y rfl
    simp only [h1, true_and]
    constructor
    · rintro ⟨a, b, e⟩
      refine ⟨h3, a, b, ?_⟩
      cases sub <;> simpa [Piece.src] using e
    · rintro ⟨_, a, b, e⟩
      refine ⟨a, b, ?_⟩
      cases sub <;> simpa [Piece.src] using e
  constructor
  · intro h
    have hf : Piece.Fine (.ref n sub) := by
      obtain ⟨ps, hc, hm | ⟨head, body, qs, hm, hq, hx'⟩⟩ := h
      · exact cut_fine hc _ hm
      · exact cut_fine hq _ hx'
    exact (key hf.1 hf.2).1 h
  · intro h
    refine (key h.1 ?_).2 h
    intro y e
    have := h.2.1 ⟨y⟩ (by rw [e]; rfl)
    exact this

theorem within_sub (text s : Str) : Within text (.sub s) ↔ SubLike s ∧ ∃ pre post, text = pre ++ c!"[[" ++ s ++ c!"]]" ++ post := by
  constructor
  · intro h
    have hf : Piece.Fine (.sub s) := by
      obtain ⟨ps, hc, hm | ⟨head, body, qs, hm, hq, hx'⟩⟩ := h
      · exact cut_fine hc _ hm
      · exact cut_fine hq _ hx'
    refine ⟨hf, ?_⟩
    obtain ⟨a, b, e⟩ := (within_tok hf (by simp) (by simp) text).1 h
    exact ⟨a, b, by rw [e]; simp [Piece.src]⟩
  · rintro ⟨hf, a, b, e⟩
    exact (within_tok (x := .sub s) hf (by simp) (by simp) text).2 ⟨a, b, by rw [e]; simp [Piece.src]⟩

end Art
