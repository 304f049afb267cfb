import Verif.Props.Grammar
import Verif.Lemmas.Headings
import Verif.Spec.Merge

/-!
# Property C93: markdown files can be joined, split and reordered
-/

namespace Art.Merge
open Spec Grammar

variable {L : Libs} {pre : Str} {fold : Char → Char}

theorem lines_join (s s' : Str) : lines (s ++ '\n' :: s') = lines (s ++ ['\n']) ++ lines s' := by
  have h := Art.lines_rows s []
  rw [Art.lines_rows s s', h]
  simp [lines, linesAux]

theorem marks_append (ss ss' : Sections) : Sections.marks (ss ++ ss') = ss.marks ++ ss'.marks := by
  unfold Sections.marks; rw [List.flatMap_append]

theorem forall₂_append_inv {α β : Type*} {R : α → β → Prop} : ∀ {l l' : List α} {m : List β}, List.Forall₂ R (l ++ l') m →
    ∃ m1 m2, m = m1 ++ m2 ∧ List.Forall₂ R l m1 ∧ List.Forall₂ R l' m2
  | [], _, m, h => ⟨[], m, rfl, .nil, h⟩
  | x :: l, l', _, h => by
    cases h with
    | cons hx h =>
      obtain ⟨m1, m2, rfl, h1, h2⟩ := forall₂_append_inv h
      exact ⟨_ :: m1, m2, rfl, .cons hx h1, h2⟩

theorem nodup_join {o o' : IMap Name ArtifactRaw} : IMap.Nodup (o ++ o') ↔ IMap.Nodup o ∧ IMap.Nodup o' ∧ NoneShared o o' := by
  unfold IMap.Nodup NoneShared
  rw [List.map_append, List.nodup_append]
  refine and_congr Iff.rfl (and_congr Iff.rfl ?_)
  simp only [List.mem_map, forall_exists_index, and_imp, forall_apply_eq_imp_iff₂]

theorem starts_cut {s : Str} {ps : List Mark} (h : Starts fold pre s) (hc : Cut fold pre (lines s) ps) : ∃ n ps', ps = .head n :: ps' := by
  obtain ⟨l, ls, n, e, hl⟩ := h
  obtain ⟨qs, hq⟩ := Grammar.cut_exists fold pre _ ls le_rfl
  rw [e] at hc
  exact ⟨n, qs, Grammar.cut_unique hc (.head hl hq)⟩

/-- **A file is read exactly if both parts are read and have no name in common, and then as the artifacts of the first followed by those of the second**, when the
second part starts with an artifact and the blocks of the first are closed. -/
theorem C93_join (L : Libs) (pre : Str) {s s' : Str} (hc : AllClosed L.fold pre (s ++ ['\n'])) (hs : Starts L.fold pre s') (out : IMap Name ArtifactRaw) :
    fromMarkdown L pre (s ++ '\n' :: s') = .ok out ↔
    ∃ o o', fromMarkdown L pre (s ++ ['\n']) = .ok o ∧ fromMarkdown L pre s' = .ok o' ∧ NoneShared o o' ∧ out = o ++ o' := by
  obtain ⟨ps, hps, hcl⟩ := hc
  obtain ⟨qs, hqs⟩ := Grammar.cut_exists L.fold pre _ (lines s') le_rfl
  have hall : Cut L.fold pre (lines (s ++ '\n' :: s')) (ps ++ qs) := by
    rw [lines_join]; exact hps.append hcl hqs
  obtain ⟨above, ss, e1, h1, h2⟩ := split_heads ps
  obtain ⟨above', ss', e1', h1', h2'⟩ := split_heads qs
  obtain ⟨n, qs', hn⟩ := starts_cut hs hqs
  have hab : above' = [] := by
    cases above' with
    | nil => rfl
    | cons p r =>
      rw [hn] at e1'
      injection e1' with e _
      exact absurd (by rw [e]; simp) (h1' n)
  subst hab
  rw [List.nil_append] at e1'
  have e : ps ++ qs = above ++ Sections.marks (ss ++ ss') := by rw [marks_append, e1, e1', List.append_assoc]
  have h3 : ∀ x ∈ ss ++ ss', Headless x.2 := fun x hx => (List.mem_append.1 hx).elim (h2 x) (h2' x)
  rw [C91_reads]
  constructor
  · rintro ⟨rs, hr, a, tt, g1, g2, g3, g4, g5⟩
    obtain ⟨rfl, rfl⟩ := headless_inj g2 h1 g3 h3 (g1.symm.trans ((Grammar.cut_unique hr hall).trans e))
    obtain ⟨o, o', rfl, f1, f2⟩ := forall₂_append_inv g4
    obtain ⟨n1, n2, n3⟩ := nodup_join.1 g5
    exact ⟨o, o', (C91_reads ..).2 ⟨ps, hps, a, ss, e1, h1, h2, f1, n1⟩,
      (C91_reads ..).2 ⟨qs, hqs, [], ss', e1', h1', h2', f2, n2⟩, n3, rfl⟩
  · rintro ⟨o, o', g1, g2, g3, rfl⟩
    obtain ⟨rs, hr, a, tt, e2, i2, i3, i4, i5⟩ := (C91_reads ..).1 g1
    obtain ⟨rs', hr', a', tt', e2', j2, j3, j4, j5⟩ := (C91_reads ..).1 g2
    obtain ⟨rfl, rfl⟩ := headless_inj i2 h1 i3 h2 (e2.symm.trans ((Grammar.cut_unique hr hps).trans e1))
    obtain ⟨rfl, rfl⟩ := headless_inj j2 h1' j3 h2' (e2'.symm.trans ((Grammar.cut_unique hr' hqs).trans e1'))
    exact ⟨_, hall, a, tt ++ tt', e, h1, h3, List.rel_append i4 j4, nodup_join.2 ⟨i5, j5, g3⟩⟩

theorem part_append {s s' : Str} (h : IsPart fold pre s) (h' : IsPart fold pre s') : IsPart fold pre (s ++ s') := by
  obtain ⟨⟨t, rfl⟩, ⟨l, ls, n, e, hl⟩, ⟨ps, hp, hc⟩⟩ := h
  obtain ⟨⟨t', rfl⟩, _, ⟨ps', hp', hc'⟩⟩ := h'
  have el : lines ((t ++ ['\n']) ++ (t' ++ ['\n'])) = lines (t ++ ['\n']) ++ lines (t' ++ ['\n']) := by
    rw [← lines_join, List.append_assoc]; rfl
  refine ⟨⟨t ++ '\n' :: t', by simp⟩, ⟨l, _, n, by rw [el, e]; rfl, hl⟩, ps ++ ps', by rw [el]; exact hp.append hc hp', ?_⟩
  intro o lost hx
  exact (List.mem_append.1 hx).elim (hc o lost) (hc' o lost)

/-- **A file made of parts is read exactly if every part is and no name is in it twice, and then part by part.** -/
theorem C93_parts (L : Libs) (pre : Str) : ∀ (parts : List Str), (∀ s ∈ parts, IsPart L.fold pre s) → ∀ out : IMap Name ArtifactRaw,
    (fromMarkdown L pre parts.flatten = .ok out ↔
    ∃ outs, List.Forall₂ (fun s o => fromMarkdown L pre s = .ok o) parts outs ∧ out = outs.flatten ∧ IMap.Nodup out)
  | [], _, out => by
    constructor
    · intro h
      cases (show (Res.ok ([] : IMap Name ArtifactRaw) : Res LoadErr (IMap Name ArtifactRaw)) = .ok out from h)
      exact ⟨[], .nil, rfl, by unfold IMap.Nodup; simp⟩
    · rintro ⟨outs, h, rfl, _⟩; cases h; rfl
  | [s], hp, out => by
    rw [List.flatten_cons, List.flatten_nil, List.append_nil]
    constructor
    · intro h
      refine ⟨[out], .cons h .nil, by simp, ?_⟩
      obtain ⟨_, _, _, _, _, _, _, _, hn⟩ := (C91_reads ..).1 h
      exact hn
    · rintro ⟨outs, h, rfl, _⟩
      cases h with
      | cons h1 h2 => cases h2; simpa using h1
  | s :: s2 :: rest, hp, out => by
    have hrest : ∀ x ∈ s2 :: rest, IsPart L.fold pre x := fun x hx => hp x (by simp [hx])
    have ih := C93_parts L pre (s2 :: rest) hrest
    have hstart : Starts L.fold pre (s2 :: rest).flatten := by
      have : ∀ (l : List Str) (x : Str), IsPart L.fold pre x → (∀ y ∈ l, IsPart L.fold pre y) → IsPart L.fold pre (x :: l).flatten := by
        intro l
        induction l with
        | nil => intro x hx _; simpa using hx
        | cons y l ihl =>
          intro x hx hl
          rw [List.flatten_cons]
          exact part_append hx (ihl y (hl y (by simp)) fun z hz => hl z (by simp [hz]))
      exact (this rest s2 (hrest s2 (by simp)) fun y hy => hrest y (by simp [hy])).starts
    obtain ⟨⟨t, ht⟩, _, hcl⟩ := hp s (by simp)
    subst ht
    have e : (((t ++ ['\n']) :: s2 :: rest).flatten) = t ++ '\n' :: (s2 :: rest).flatten := by
      rw [List.flatten_cons, List.append_assoc]; rfl
    rw [e, C93_join L pre hcl hstart]
    constructor
    · rintro ⟨o, o', h1, h2, h3, rfl⟩
      obtain ⟨outs, h4, rfl, h5⟩ := (ih o').1 h2
      obtain ⟨_, _, _, _, _, _, _, _, hn⟩ := (C91_reads ..).1 h1
      exact ⟨o :: outs, .cons h1 h4, rfl, nodup_join.2 ⟨hn, h5, h3⟩⟩
    · rintro ⟨outs, h, rfl, hn⟩
      cases h with
      | @cons _ o _ outs h1 h2 =>
        rw [List.flatten_cons] at hn
        obtain ⟨_, n2, n3⟩ := nodup_join.1 hn
        exact ⟨o, _, h1, (ih _).2 ⟨outs, h2, rfl, n2⟩, n3, rfl⟩

theorem forall₂_perm {α β : Type*} {R : α → β → Prop} {l l' : List α} (hp : l.Perm l') : ∀ {m : List β}, List.Forall₂ R l m →
    ∃ m', m.Perm m' ∧ List.Forall₂ R l' m' := by
  induction hp with
  | nil => intro m h; exact ⟨m, .refl _, h⟩
  | cons x _ ih =>
    intro m h
    cases h with
    | cons hx h => obtain ⟨m', h1, h2⟩ := ih h; exact ⟨_ :: m', h1.cons _, .cons hx h2⟩
  | swap x y l =>
    intro m h
    cases h with
    | cons hy h => cases h with
      | cons hx h => exact ⟨_, List.Perm.swap _ _ _, .cons hx (.cons hy h)⟩
  | trans _ _ ih1 ih2 =>
    intro m h
    obtain ⟨m1, p1, h1⟩ := ih1 h
    obtain ⟨m2, p2, h2⟩ := ih2 h1
    exact ⟨m2, p1.trans p2, h2⟩

/-- **The order of the parts does not matter**: a file with the same parts in another order is read too, as the same artifacts in another order. -/
theorem C93_reorder (L : Libs) (pre : Str) {parts parts' : List Str} (hp : ∀ s ∈ parts, IsPart L.fold pre s) (hperm : parts.Perm parts')
    {out : IMap Name ArtifactRaw} (h : fromMarkdown L pre parts.flatten = .ok out) :
    ∃ out', fromMarkdown L pre parts'.flatten = .ok out' ∧ out.Perm out' := by
  obtain ⟨outs, h1, rfl, h2⟩ := (C93_parts L pre parts hp out).1 h
  obtain ⟨outs', p, h3⟩ := forall₂_perm hperm h1
  refine ⟨outs'.flatten, (C93_parts L pre parts' (fun s hs => hp s (hperm.mem_iff.2 hs)) _).2 ⟨outs', h3, rfl, ?_⟩, p.flatten⟩
  unfold IMap.Nodup at *
  exact ((p.flatten.map _).nodup_iff).1 h2

/-- **Parts can be moved from one file to another**: if two files are read and the parts are distributed over two files in another way, then these are read too, provided that
no name was in both; and together they have the same artifacts. -/
theorem C93_move (L : Libs) (pre : Str) {f g f' g' : List Str} (hf : ∀ s ∈ f ++ g, IsPart L.fold pre s) (hperm : (f ++ g).Perm (f' ++ g'))
    {o p : IMap Name ArtifactRaw} (ho : fromMarkdown L pre f.flatten = .ok o) (hp : fromMarkdown L pre g.flatten = .ok p) (hns : NoneShared o p) :
    ∃ o' p', fromMarkdown L pre f'.flatten = .ok o' ∧ fromMarkdown L pre g'.flatten = .ok p' ∧ NoneShared o' p' ∧ (o ++ p).Perm (o' ++ p') := by
  obtain ⟨os, h1, rfl, n1⟩ := (C93_parts L pre f (fun s hs => hf s (by simp [hs])) o).1 ho
  obtain ⟨qs, h2, rfl, n2⟩ := (C93_parts L pre g (fun s hs => hf s (by simp [hs])) p).1 hp
  obtain ⟨all, hpm, h3⟩ := forall₂_perm hperm (List.rel_append h1 h2)
  obtain ⟨os', qs', rfl, h4, h5⟩ := forall₂_append_inv h3
  have hpf : (os.flatten ++ qs.flatten).Perm (os'.flatten ++ qs'.flatten) := by
    rw [← List.flatten_append, ← List.flatten_append]; exact hpm.flatten
  have hn : IMap.Nodup (os'.flatten ++ qs'.flatten) := by
    have := nodup_join.2 ⟨n1, n2, hns⟩
    unfold IMap.Nodup at *
    exact ((hpf.map _).nodup_iff).1 this
  obtain ⟨m1, m2, m3⟩ := nodup_join.1 hn
  have hm : ∀ s ∈ f' ++ g', IsPart L.fold pre s := fun s hs => hf s (hperm.mem_iff.2 hs)
  exact ⟨_, _, (C93_parts L pre f' (fun s hs => hm s (by simp [hs])) _).2 ⟨os', h4, rfl, m1⟩,
    (C93_parts L pre g' (fun s hs => hm s (by simp [hs])) _).2 ⟨qs', h5, rfl, m2⟩, m3, hpf⟩

end Art.Merge
