import Verif.Lemmas.Grammar

/-!
# Property C91: what a markdown file says, whoever wrote it

C21 is about files written by the program. Here the file is any text: it is cut into pieces in exactly one way, and reading it gives exactly the
artifacts that the pieces stand for.
-/

namespace Art.Grammar
open Spec

variable {L : Libs} {pre : Str} {fold : Char → Char}

theorem head_unique {l n m : Str} (h : HeadLine fold pre l n) (h' : HeadLine fold pre l m) : n = m := by
  have e := h.full.symm.trans h'.full
  cases e; rfl

theorem close_split : ∀ {a a' : List Str} {e e' : Str} {r r' : List Str}, (∀ l ∈ a, ¬ CloseLine l) → (∀ l ∈ a', ¬ CloseLine l) → CloseLine e →
    CloseLine e' → a ++ e :: r = a' ++ e' :: r' → a = a' ∧ r = r'
  | [], [], _, _, _, _, _, _, _, _, h => by cases h; exact ⟨rfl, rfl⟩
  | [], x :: a', e, _, _, _, _, h2, h3, _, h => by
    simp only [List.nil_append, List.cons_append, List.cons.injEq] at h
    exact absurd h3 (by rw [h.1]; exact h2 x (by simp))
  | x :: a, [], _, e', _, _, h1, _, _, h4, h => by
    simp only [List.nil_append, List.cons_append, List.cons.injEq] at h
    exact absurd h4 (by rw [← h.1]; exact h1 x (by simp))
  | x :: a, x' :: a', _, _, _, _, h1, h2, h3, h4, h => by
    simp only [List.cons_append, List.cons.injEq] at h
    obtain ⟨rfl, h⟩ := h
    obtain ⟨rfl, rfl⟩ := close_split (fun l hl => h1 l (by simp [hl])) (fun l hl => h2 l (by simp [hl])) h3 h4 h
    exact ⟨rfl, rfl⟩

theorem cut_exists (fold : Char → Char) (pre : Str) : ∀ (k : Nat) (ls : List Str), ls.length ≤ k → ∃ ps, Cut fold pre ls ps
  | _, [], _ => ⟨[], .nil⟩
  | 0, l :: ls, h => by simp at h
  | k + 1, l :: ls, h => by
    have hk : ls.length ≤ k := by simpa using h
    by_cases h1 : NameLine fold pre l
    · obtain ⟨p, w, n, w', hn⟩ := h1
      obtain ⟨ps, hps⟩ := cut_exists fold pre k ls hk
      exact ⟨_, .head ⟨p, w, w', hn⟩ hps⟩
    by_cases h2 : EndLine l
    · obtain ⟨ps, hps⟩ := cut_exists fold pre k ls hk
      exact ⟨_, .hashes h1 h2 hps⟩
    by_cases h3 : FenceLine l
    · by_cases h4 : ∃ e ∈ ls, CloseLine e
      · have : ∃ a e r, ls = a ++ e :: r ∧ (∀ x ∈ a, ¬ CloseLine x) ∧ CloseLine e := by
          clear hk h
          induction ls with
          | nil => obtain ⟨_, h, _⟩ := h4; cases h
          | cons x ls ih =>
            by_cases hx : CloseLine x
            · exact ⟨[], x, ls, rfl, (fun _ h => by cases h), hx⟩
            · obtain ⟨e, he, hce⟩ := h4
              have he' : e ∈ ls := by
                rcases List.mem_cons.1 he with rfl | he
                · exact absurd hce hx
                · exact he
              obtain ⟨a, e2, r, h5, h6, h7⟩ := ih ⟨e, he', hce⟩
              refine ⟨x :: a, e2, r, by rw [h5]; rfl, fun y hy => ?_, h7⟩
              rcases List.mem_cons.1 hy with rfl | hy
              · exact hx
              · exact h6 y hy
        obtain ⟨a, e, r, rfl, h6, h7⟩ := this
        obtain ⟨ps, hps⟩ := cut_exists fold pre k r (by simp at hk; omega)
        exact ⟨_, .block h1 h3 h6 h7 hps⟩
      · exact ⟨_, .cut h1 h3 (fun x hx hc => h4 ⟨x, hx, hc⟩)⟩
    · obtain ⟨ps, hps⟩ := cut_exists fold pre k ls hk
      exact ⟨_, .text ⟨h1, h2, h3⟩ hps⟩

theorem cut_unique {ls : List Str} {ps qs : List Mark} (h : Cut fold pre ls ps) (h' : Cut fold pre ls qs) : ps = qs := by
  induction h generalizing qs with
  | nil => cases h'; rfl
  | head hl _ ih =>
    cases h' with
    | head hl' hc => rw [head_unique hl hl', ih hc]
    | text ht _ => exact absurd hl.name ht.1
    | hashes hn _ _ => exact absurd hl.name hn
    | block hn _ _ _ _ => exact absurd hl.name hn
    | cut hn _ _ => exact absurd hl.name hn
  | text ht _ ih =>
    cases h' with
    | head hl _ => exact absurd hl.name ht.1
    | text _ hc => rw [ih hc]
    | hashes _ he _ => exact absurd he ht.2.1
    | block _ ho _ _ _ => exact absurd ho ht.2.2
    | cut _ ho _ => exact absurd ho ht.2.2
  | hashes hn he _ ih =>
    cases h' with
    | head hl _ => exact absurd hl.name hn
    | text ht _ => exact absurd he ht.2.1
    | hashes _ _ hc => rw [ih hc]
    | block _ ho _ _ _ => exact absurd ho (end_not_fence he)
    | cut _ ho _ => exact absurd ho (end_not_fence he)
  | @block o a e ls ps hn ho ha he _ ih =>
    generalize hx : o :: (a ++ e :: ls) = xs at h'
    cases h' with
    | nil => cases hx
    | head hl _ => cases hx; exact absurd hl.name hn
    | text ht _ => cases hx; exact absurd ho ht.2.2
    | hashes _ he _ => cases hx; exact absurd ho (end_not_fence he)
    | block _ _ ha' he' hc =>
      injection hx with h1 h2
      obtain ⟨rfl, rfl⟩ := close_split ha ha' he he' h2
      rw [ih hc]
    | cut _ _ hl =>
      injection hx with h1 h2
      exact absurd he (hl e (by rw [← h2]; simp))
  | @cut o lost hn ho hl =>
    generalize hx : o :: lost = xs at h'
    cases h' with
    | nil => cases hx
    | head hl' _ => cases hx; exact absurd hl'.name hn
    | text ht _ => cases hx; exact absurd ho ht.2.2
    | hashes _ he _ => cases hx; exact absurd ho (end_not_fence he)
    | block _ _ _ he _ =>
      injection hx with h1 h2
      exact absurd he (hl _ (by rw [h2]; simp))
    | cut _ _ _ => cases hx; rfl

/-- Every file can be cut into pieces, and in one way only; and the pieces have one part above the first artifact and one list of sections only. -/
theorem C91_cut (fold : Char → Char) (pre : Str) (ls : List Str) : (∃ ps, Cut fold pre ls ps ∧ ∀ qs, Cut fold pre ls qs → qs = ps) ∧
    ∀ ps : List Mark, ∃ (above : List Mark) (ss : Sections), (ps = above ++ ss.marks ∧ Headless above ∧ ∀ s ∈ ss, Headless s.2) ∧
      ∀ (above' : List Mark) (ss' : Sections), ps = above' ++ ss'.marks → Headless above' → (∀ s ∈ ss', Headless s.2) → above' = above ∧ ss' = ss := by
  constructor
  · obtain ⟨ps, h⟩ := cut_exists fold pre ls.length ls le_rfl
    exact ⟨ps, h, fun qs hq => cut_unique hq h⟩
  · intro ps
    obtain ⟨above, ss, h1, h2, h3⟩ := split_heads ps
    exact ⟨above, ss, ⟨h1, h2, h3⟩, fun above' ss' g1 g2 g3 => headless_inj g2 h2 g3 h3 (g1.symm.trans h1)⟩

/-- **A markdown file is read exactly if its pieces stand for artifacts, and then as these artifacts.** -/
theorem C91_reads (L : Libs) (pre s : Str) (out : IMap Name ArtifactRaw) :
    fromMarkdown L pre s = .ok out ↔ ∃ ps, Cut L.fold pre (lines s) ps ∧ Means L ps out := by
  obtain ⟨ps, hc⟩ := cut_exists L.fold pre _ (lines s) le_rfl
  have hread : fromMarkdown L pre s = prun L ⟨[], none, none, [], none⟩ ps >>= fun st' => flush L st' := rest_cut hc rfl
  obtain ⟨above, ss, h1, h2, h3⟩ := split_heads ps
  have hlast : CutLast (above ++ ss.marks) := h1 ▸ hc.last
  have main : fromMarkdown L pre s = .ok out ↔
      List.Forall₂ (fun s x => Name.fromStr s.1 = .ok x.1 ∧ Says L s.2 x.2) ss out ∧ IMap.Nodup out := by
    rw [hread, h1, prun_append, bind_assoc']
    obtain ⟨A, T, ha⟩ := prun_above (L := L) above none [] h2
    rw [ha]
    show (prun L ⟨[], none, A, T, none⟩ ss.marks >>= fun st' => flush L st') = _ ↔ _
    cases ss with
    | nil =>
      show (Res.ok ([] : IMap Name ArtifactRaw) : Res LoadErr (IMap Name ArtifactRaw)) = .ok out ↔ _
      constructor
      · intro h; cases h; exact ⟨.nil, by unfold IMap.Nodup; simp⟩
      · rintro ⟨h, _⟩; cases h; rfl
    | cons x ss =>
      obtain ⟨n, b⟩ := x
      rw [marks_cons, prun_head]
      have hb : Headless b := h3 (n, b) (by simp)
      have hss : ∀ s ∈ ss, Headless s.2 := fun s hs => h3 s (by simp [hs])
      have hcl : CutLast (b ++ Sections.marks ss) := (hlast.right : CutLast (.head n :: (b ++ Sections.marks ss)))
      constructor
      · rintro ⟨out0, m, e1, e2, e3⟩
        cases e1
        obtain ⟨r, more, g1, g2, rfl, g4⟩ := (sections_iff ss [] out m b (by unfold IMap.Nodup; simp) hb hss hcl).1 e3
        exact ⟨.cons ⟨e2, g1⟩ g2, g4⟩
      · rintro ⟨hf, hnd⟩
        cases hf with
        | @cons _ x _ more hx hf =>
          refine ⟨[], x.1, rfl, hx.1, ?_⟩
          exact (sections_iff ss [] _ x.1 b (by unfold IMap.Nodup; simp) hb hss hcl).2 ⟨x.2, more, hx.2, hf, rfl, hnd⟩
  rw [main]
  constructor
  · intro h; exact ⟨ps, hc, above, ss, h1, h2, h3, h⟩
  · rintro ⟨qs, hq, above', ss', g1, g2, g3, g4⟩
    obtain ⟨rfl, rfl⟩ := headless_inj g2 h2 g3 h3 (g1.symm.trans ((cut_unique hq hc).trans h1))
    exact g4

/-- All attribute blocks are closed. -/
def Closed (ps : List Mark) : Prop := ∀ o lost, Mark.cut o lost ∉ ps

theorem Cut.append {ls ls' : List Str} {ps ps' : List Mark} (h : Cut fold pre ls ps) (hc : Closed ps) (h' : Cut fold pre ls' ps') :
    Cut fold pre (ls ++ ls') (ps ++ ps') := by
  induction h with
  | nil => exact h'
  | head hl _ ih => exact .head hl (ih fun o x hx => hc o x (by simp [hx]))
  | text hl _ ih => exact .text hl (ih fun o x hx => hc o x (by simp [hx]))
  | hashes hn he _ ih => exact .hashes hn he (ih fun o x hx => hc o x (by simp [hx]))
  | block hn ho ha he _ ih =>
    rw [List.cons_append, List.append_assoc, List.cons_append]
    exact .block hn ho ha he (ih fun o x hx => hc o x (by simp [hx]))
  | @cut o lost _ _ _ => exact absurd (by simp) (hc o lost)

/-- **Whatever is above the first artifact of a file does not matter**, provided that all its attribute blocks are closed. -/
theorem C91_above (L : Libs) (pre : Str) {s s' : Str} {above ls : List Str} {ps : List Mark} (ha : Cut L.fold pre above ps) (hh : Headless ps)
    (hc : Closed ps) (e : lines s = above ++ ls) (e' : lines s' = ls) :
    fromMarkdown L pre s = fromMarkdown L pre s' := by
  obtain ⟨qs, hq⟩ := cut_exists L.fold pre _ ls le_rfl
  have h1 : fromMarkdown L pre s = prun L ⟨[], none, none, [], none⟩ (ps ++ qs) >>= fun st' => flush L st' := by
    have := rest_cut (L := L) (pre := pre) (ha.append hc hq) (st := ⟨[], none, none, [], none⟩) rfl
    rw [← e] at this; exact this
  have h2 : fromMarkdown L pre s' = prun L ⟨[], none, none, [], none⟩ qs >>= fun st' => flush L st' := by
    have := rest_cut (L := L) (pre := pre) hq (st := ⟨[], none, none, [], none⟩) rfl
    rw [← e'] at this; exact this
  obtain ⟨above', ss, g1, g2, g3⟩ := split_heads qs
  rw [h1, h2, g1, prun_append, prun_append, bind_assoc', bind_assoc']
  obtain ⟨A, T, r1⟩ := prun_above (L := L) ps none [] hh
  rw [r1]
  show (prun L ⟨[], none, A, T, none⟩ (above' ++ ss.marks) >>= _) = _
  rw [prun_append, bind_assoc']
  obtain ⟨A1, T1, r2⟩ := prun_above (L := L) above' A T g2
  obtain ⟨A2, T2, r3⟩ := prun_above (L := L) above' none [] g2
  rw [r2, r3]
  show (prun L ⟨[], none, A1, T1, none⟩ ss.marks >>= _) = prun L ⟨[], none, A2, T2, none⟩ ss.marks >>= _
  cases ss with
  | nil => rfl
  | cons x ss => rfl

/-- **After an attribute block that is not closed, nothing of the file matters**: neither texts nor artifacts nor mistakes, and nothing is said about it. -/
theorem C91_unclosed (L : Libs) (pre : Str) {s s' : Str} {ls lost lost' : List Str} {ps : List Mark} {o : Str} (h : Cut L.fold pre ls ps)
    (hc : Closed ps) (hn : ¬ NameLine L.fold pre o) (ho : FenceLine o) (hl : ∀ l ∈ lost, ¬ CloseLine l) (hl' : ∀ l ∈ lost', ¬ CloseLine l)
    (e : lines s = ls ++ o :: lost) (e' : lines s' = ls ++ o :: lost') : fromMarkdown L pre s = fromMarkdown L pre s' := by
  have h1 := rest_cut (L := L) (pre := pre) (h.append hc (.cut hn ho hl)) (st := ⟨[], none, none, [], none⟩) rfl
  have h2 := rest_cut (L := L) (pre := pre) (h.append hc (.cut hn ho hl')) (st := ⟨[], none, none, [], none⟩) rfl
  rw [← e] at h1
  rw [← e'] at h2
  show rest L pre _ (lines s) = rest L pre _ (lines s')
  rw [h1, h2, prun_append, prun_append]
  rfl

end Art.Grammar
