import Verif.Model.Scan
import Verif.Lemmas.RegexOrder
import Verif.Lemmas.IMap
import Verif.Props.Name

/-! Helper lemmas for the scanners of artifact text and source code. -/

namespace Art

theorem split_le {α : Type _} {m1 r1 m2 r2 : List α} (h : m1 ++ r1 = m2 ++ r2) (hle : m2.length ≤ m1.length) :
    ∃ v, m1 = m2 ++ v ∧ r2 = v ++ r1 := by
  rcases List.append_eq_append_iff.1 h with ⟨v, e1, e2⟩ | ⟨v, e1, e2⟩
  · have hv : v = [] := by
      have := congrArg List.length e1
      rw [List.length_append] at this
      exact List.length_eq_zero_iff.1 (by omega)
    subst hv
    exact ⟨[], by simpa using e1.symm, by simpa using e2.symm⟩
  · exact ⟨v, e1, e2⟩

theorem prefix_eq {α : Type _} {a b s : List α} (ha : a <+: s) (hb : b <+: s) (h : a.length = b.length) : a = b :=
  (List.prefix_of_prefix_length_le ha hb h.le).eq_of_length h

/-- Characters that case folding leaves alone and to which nothing else folds. -/
def Plain7 (c : Char) : Prop := c.toNat < 65 ∨ (90 < c.toNat ∧ c.toNat < 97) ∨ (122 < c.toNat ∧ c.toNat < 128)

theorem foldC_plain {x c : Char} (hc : Plain7 c) : foldC x = foldC c ↔ x = c := by
  unfold Plain7 at hc
  rw [char_eq, char_eq, foldC_toNat, foldC_toNat]
  split_ifs <;> omega

theorem lang_litI_plain {l x : Str} (h : ∀ c ∈ l, Plain7 c) : Re.Lang (.litI l) x ↔ x = l := by
  rw [Re.lang_litI]
  induction l generalizing x with
  | nil => simp
  | cons c l ih =>
    cases x with
    | nil => simp
    | cons d x =>
      simp only [List.map_cons, List.cons.injEq]
      rw [foldC_plain (h c (by simp)), ih (fun e he => h e (by simp [he]))]

instance (c : Char) : Decidable (Plain7 c) := by unfold Plain7; infer_instance

/-! ### Priority order of the name and subname patterns -/

theorem segDash_le_one (s : Str) : (Re.ms (.seq (.plus nameCh) (.litI c!"-")) s).length ≤ 1 := by
  have key : ∀ m1 r1 m2 r2 : Str, s = m1 ++ r1 → s = m2 ++ r2 → SegI m1 → m2.length < m1.length → c!"-" <+: r2 → False := by
    intro m1 r1 m2 r2 e1 e2 h1 hlt hd
    obtain ⟨v, e3, e4⟩ := split_le (e1.symm.trans e2) hlt.le
    have hv : v ≠ [] := by rintro rfl; rw [e3] at hlt; simp at hlt
    obtain ⟨w, hw⟩ := hd
    cases v with
    | nil => exact hv rfl
    | cons a v =>
      rw [e4] at hw
      simp at hw
      exact segI_no_dash h1 (by rw [e3, ← hw.1]; simp)
  refine Re.length_le_one_of_strict (Re.strict_seq (Re.strict_plus_ch _ _) (Re.strict_litI _) ?_) ?_
  · intro m1 r1 m2 r2 n1 n2 e1 e2 l1 l2 hlt k1 k2 p1 p2
    rw [lang_dash] at k2; subst k2
    exact (key m1 r1 m2 r2 e1 e2 (lang_plus_nameCh.1 l1) hlt p2).elim
  · rintro ⟨x, rx, cx⟩ hx ⟨y, ry, cy⟩ hy
    obtain ⟨ex, m1, n1, hm1, hn1, rfl⟩ := Re.ms_sound _ _ _ _ _ hx
    obtain ⟨ey, m2, n2, hm2, hn2, rfl⟩ := Re.ms_sound _ _ _ _ _ hy
    rw [lang_dash] at hn1 hn2
    subst hn1 hn2
    rw [lang_plus_nameCh] at hm1 hm2
    rw [List.append_assoc] at ex ey
    simp only [List.length_append]
    rcases lt_trichotomy m1.length m2.length with h | h | h
    · exact (key m2 _ m1 _ ey ex hm2 h ⟨rx, rfl⟩).elim
    · rw [h]
    · exact (key m1 _ m2 _ ex ey hm1 h ⟨ry, rfl⟩).elim

theorem lang_starSeg_last {m : Str} (h : Re.Lang (.star true (.seq (.plus nameCh) (.litI c!"-"))) m) (hne : m ≠ []) :
    ∃ k, m = k ++ c!"-" := by
  obtain ⟨l, hl, rfl⟩ := h
  cases hl' : l with
  | nil => subst hl'; simp at hne
  | cons a l' =>
    have hne' : l ≠ [] := by rw [hl']; simp
    obtain ⟨g, d, _, hd, e⟩ := hl (l.getLast hne') (List.getLast_mem hne')
    rw [lang_dash] at hd
    subst hd
    refine ⟨l.dropLast.flatten ++ g, ?_⟩
    rw [← hl']
    conv_lhs => rw [← List.dropLast_append_getLast hne']
    rw [List.flatten_append, e]
    simp

theorem strict_nameRe (s : Str) : Re.Strict (Re.ms nameRe s) := by
  have h3 : ∀ {l x : Str}, Re.Lang (.litI l) x → x.length = l.length := by
    intro l x h; rw [Re.lang_litI] at h; simpa using congrArg List.length h
  have hT : ∀ {x : Str}, Re.Lang (.alt (.litI c!"REQ") (.alt (.litI c!"SPC") (.litI c!"TST"))) x → x.length = 3 := by
    rintro x (h | h | h) <;> exact h3 h
  unfold nameRe
  refine Re.strict_seq ?_ ?_ ?_
  · refine Re.strict_alt (Re.strict_litI _ _) (Re.strict_alt (Re.strict_litI _ _) (Re.strict_litI _ _) ?_) ?_
    · intro m1 m2 p1 p2 l1 l2
      have := prefix_eq p1 p2 ((h3 l1).trans (h3 l2).symm)
      subst this
      rw [Re.lang_litI] at l1 l2
      rw [l1] at l2
      exact absurd l2 (by decide)
    · intro m1 m2 p1 p2 l1 l2
      have e2 : m2.length = 3 := by rcases l2 with h | h <;> exact h3 h
      have := prefix_eq p1 p2 ((h3 l1).trans e2.symm)
      subst this
      rcases l2 with l2 | l2 <;>
      · rw [Re.lang_litI] at l1 l2
        rw [l1] at l2
        exact absurd l2 (by decide)
  · intro s
    refine Re.strict_seq (Re.strict_litI _ _) ?_ ?_
    · intro s
      refine Re.strict_seq (Re.strict_star segDash_le_one s) (Re.strict_plus_ch _) ?_
      intro m1 r1 m2 r2 n1 n2 e1 e2 l1 l2 hlt k1 k2 p1 p2
      obtain ⟨v, e3, e4⟩ := split_le (e1.symm.trans e2) hlt.le
      have hm1 : m1 ≠ [] := by rintro rfl; simp at hlt
      obtain ⟨k, hk⟩ := lang_starSeg_last l1 hm1
      have hv : v ≠ [] := by rintro rfl; rw [e3] at hlt; simp at hlt
      have hdash : '-' ∈ v := by
        have : m2 ++ v = k ++ c!"-" := e3.symm.trans hk
        have h' := congrArg List.getLast? this
        rw [List.getLast?_append_of_ne_nil _ hv, List.getLast?_append_of_ne_nil _ (by simp)] at h'
        exact List.mem_of_getLast? h'
      have hn2 : '-' ∉ n2 := segI_no_dash (lang_plus_nameCh.1 k2)
      have : n2.length < v.length := by
        by_contra hge
        have hpre : v <+: n2 := List.prefix_of_prefix_length_le ⟨r1, e4.symm⟩ p2 (by omega)
        exact hn2 (hpre.subset hdash)
      rw [e3, List.length_append]
      omega
    · intro m1 r1 m2 r2 n1 n2 e1 e2 l1 l2 hlt
      rw [h3 l1, h3 l2] at hlt
      omega
  · intro m1 r1 m2 r2 n1 n2 e1 e2 l1 l2 hlt
    rw [hT l1, hT l2] at hlt
    omega

theorem strict_subRe (s : Str) : Re.Strict (Re.ms subRe s) := by
  have h3 : ∀ {l x : Str}, Re.Lang (.litI l) x → x.length = l.length := by
    intro l x h; rw [Re.lang_litI] at h; simpa using congrArg List.length h
  unfold subRe
  refine Re.strict_seq (Re.strict_litI _ _) ?_ ?_
  · intro s
    refine Re.strict_seq (Re.strict_alt (Re.strict_litI _ _) (Re.strict_eps _) ?_) (Re.strict_plus_ch _) ?_
    · intro m1 m2 _ _ l1 l2
      have : m2 = [] := l2
      subst this
      rw [h3 l1]; simp
    · intro m1 r1 m2 r2 n1 n2 e1 e2 l1 l2 hlt k1 k2 p1 p2
      have hm1 : m1.length = 4 ∨ m1 = [] := by
        rcases l1 with h | h
        · exact Or.inl (h3 h)
        · exact Or.inr h
      have hm2 : m2.length = 4 ∨ m2 = [] := by
        rcases l2 with h | h
        · exact Or.inl (h3 h)
        · exact Or.inr h
      rcases hm1 with hm1 | rfl
      · rcases hm2 with hm2 | rfl
        · omega
        · simp only [List.nil_append] at e2
          subst e2
          have l1' : Re.Lang (.litI c!"tst-") m1 := by
            rcases l1 with h | h
            · exact h
            · have : m1 = [] := h
              subst this; simp at hm1
          rw [Re.lang_litI] at l1'
          match m1, hm1 with
          | [a, b, c, d], _ =>
            simp only [List.map_cons, List.map_nil, List.cons.injEq, and_true] at l1'
            have hd : d = '-' := (foldC_plain (by decide)).1 l1'.2.2.2
            subst hd
            have hn2 : '-' ∉ n2 := segI_no_dash (lang_plus_nameCh.1 k2)
            have : n2.length < 4 := by
              by_contra hge
              have hpre : [a, b, c, '-'] <+: n2 := List.prefix_of_prefix_length_le ⟨r1, e1.symm⟩ p2 (by simp; omega)
              exact hn2 (hpre.subset (by simp))
            simp; omega
      · simp at hlt
  · intro m1 r1 m2 r2 n1 n2 e1 e2 l1 l2 hlt
    rw [h3 l1, h3 l2] at hlt
    omega

theorem noCap_nameRe : Re.NoCap nameRe := by
  refine ⟨⟨Re.noCap_litI _, Re.noCap_litI _, Re.noCap_litI _⟩, Re.noCap_litI _, ⟨⟨trivial, trivial⟩, Re.noCap_litI _⟩, trivial, trivial⟩

theorem noCap_subRe : Re.NoCap subRe := by
  refine ⟨Re.noCap_litI _, ⟨Re.noCap_litI _, trivial⟩, trivial, trivial⟩

/-! ### Characters occurring in references -/

/-- Characters that never occur inside a name or a subname. -/
def Outside (c : Char) : Prop := nameCharI c = false ∧ c ≠ '-' ∧ c ≠ '.'

instance (c : Char) : Decidable (Outside c) := by unfold Outside; infer_instance

theorem sub_shape {s : Str} (h : Re.Lang subRe s) :
    ∃ w, s = '.' :: w ∧ w ≠ [] ∧ ∀ c ∈ w, nameCharI c = true ∨ c = '-' := by
  obtain ⟨x, y, hx, ⟨u, w, hu, hw, rfl⟩, rfl⟩ := h
  rw [lang_litI_plain (by decide)] at hx
  subst hx
  rw [lang_plus_nameCh] at hw
  refine ⟨u ++ w, rfl, by simp [hw.1], ?_⟩
  intro c hc
  rcases List.mem_append.1 hc with hc | hc
  · rcases hu with hu | hu
    · rw [Re.lang_litI] at hu
      have hm : foldC c ∈ c!"tst-".map foldC := by rw [← hu]; exact List.mem_map_of_mem hc
      have hm' : foldC c = 't' ∨ foldC c = 's' ∨ foldC c = '-' := by
        have : c!"tst-".map foldC = c!"tst-" := by decide
        rw [this] at hm
        simp at hm
        tauto
      rcases hm' with h | h | h
      · left; unfold nameCharI; simp only [h]; decide
      · left; unfold nameCharI; simp only [h]; decide
      · right; exact (foldC_plain (c := '-') (by decide)).1 (h.trans (by decide))
    · have : u = [] := hu
      subst this
      simp at hc
  · exact Or.inl (hw.2 c hc)

theorem sub_outside {s : Str} (h : Re.Lang subRe s) {c : Char} (hc : Outside c) : c ∉ s := by
  obtain ⟨w, rfl, _, hw⟩ := sub_shape h
  intro hm
  rcases List.mem_cons.1 hm with rfl | hm
  · exact hc.2.2 rfl
  · rcases hw c hm with h | h
    · rw [hc.1] at h; cases h
    · exact hc.2.1 h

theorem name_chars {s : Str} (h : Re.Lang nameRe s) : ∀ c ∈ s, nameCharI c = true ∨ c = '-' := by
  obtain ⟨p, segs, hp, _, hs, rfl⟩ := lang_nameRe.1 h
  intro c hc
  rcases List.mem_append.1 hc with hc | hc
  · left
    have : foldC c ∈ p.map foldC := List.mem_map_of_mem hc
    have hm : foldC c ∈ c!"reqspct" := by
      rcases hp with h | h | h <;> rw [h] at this <;> simp at this <;> rcases this with h | h | h <;> rw [h] <;> decide
    have : ∀ d ∈ c!"reqspct", (('a' ≤ d && d ≤ 'z') || ('0' ≤ d && d ≤ '9') || d == '_') = true := by decide
    exact this _ hm
  · simp only [dashed, List.mem_flatMap, List.mem_cons] at hc
    obtain ⟨g, hg, rfl | hc⟩ := hc
    · exact Or.inr rfl
    · exact Or.inl ((hs g hg).2 c hc)

theorem name_outside {s : Str} (h : Re.Lang nameRe s) {c : Char} (hc : nameCharI c = false ∧ c ≠ '-') : c ∉ s := by
  intro hm
  rcases name_chars h c hm with h | h
  · rw [hc.1] at h; cases h
  · exact hc.2 h

theorem name_ne_nil {s : Str} (h : Re.Lang nameRe s) : s ≠ [] := by
  obtain ⟨p, segs, hp, _, _, rfl⟩ := lang_nameRe.1 h
  have := tyFold_length hp
  intro e
  have := (List.append_eq_nil_iff.1 e).1
  subst this
  simp at *

/-! ### `[[.sub]]` -/

theorem lang_textSub {x : Str} : Re.Lang textSubRe x ↔ ∃ sub, Re.Lang subRe sub ∧ x = c!"[[" ++ sub ++ c!"]]" := by
  unfold textSubRe
  constructor
  · rintro ⟨a, b, ha, ⟨sub, d, hs, hd, rfl⟩, rfl⟩
    rw [lang_litI_plain (by decide)] at ha hd
    subst ha hd
    exact ⟨sub, hs, by simp⟩
  · rintro ⟨sub, hs, rfl⟩
    exact ⟨c!"[[", sub ++ c!"]]", (lang_litI_plain (by decide)).2 rfl, ⟨sub, c!"]]", hs, (lang_litI_plain (by decide)).2 rfl, rfl⟩, by simp⟩

theorem until_unique {a b r r' : Str} {c : Char} (ha : c ∉ a) (hb : c ∉ b) (h : a ++ c :: r = b ++ c :: r') :
    a = b ∧ r = r' := by
  induction a generalizing b with
  | nil =>
    cases b with
    | nil => simpa using h
    | cons d b => simp at h; exact absurd h.1 (by rintro rfl; simp at hb)
  | cons d a ih =>
    cases b with
    | nil => simp at h; exact absurd h.1.symm (by rintro rfl; simp at ha)
    | cons e b =>
      simp only [List.cons_append, List.cons.injEq] at h
      obtain ⟨h1, h2⟩ := ih (by simp_all) (by simp_all) h.2
      exact ⟨by rw [h.1, h1], h2⟩

theorem here_textSub_caps {t : Str} {x : Match} (h : Re.here textSubRe t = some x) :
    ∃ sub, Caps.get x.2.2 1 = some sub ∧ Re.Lang subRe sub ∧ t = c!"[[" ++ sub ++ c!"]]" ++ x.2.1 := by
  have hm : x ∈ Re.ms textSubRe t := List.mem_of_head? h
  unfold textSubRe at hm
  simp only [Re.ms, List.mem_flatMap, List.mem_map, Prod.exists] at hm
  obtain ⟨m1, r1, c1, h1, m2, r2, c2, ⟨m3, r3, c3, h3, m4, r4, c4, h4, e4⟩, rfl⟩ := hm
  obtain ⟨m5, r5, c5, h5, e5⟩ := h3
  have n1 := Re.ms_noCap (Re.noCap_litI _) _ _ h1
  have n4 := Re.ms_noCap (Re.noCap_litI _) _ _ h4
  have n5 := Re.ms_noCap noCap_subRe _ _ h5
  obtain ⟨e1, l1⟩ := Re.ms_sound _ _ _ _ _ h1
  obtain ⟨e4', l4⟩ := Re.ms_sound _ _ _ _ _ h4
  obtain ⟨e5', l5⟩ := Re.ms_sound _ _ _ _ _ h5
  rw [lang_litI_plain (by decide)] at l1 l4
  simp only [Prod.mk.injEq] at e4 e5 n1 n4 n5
  obtain ⟨rfl, rfl, rfl⟩ := e5
  obtain ⟨rfl, rfl, rfl⟩ := e4
  subst n1 n4 n5
  refine ⟨m5, rfl, l5, ?_⟩
  rw [e1, e5', e4', l1, l4]
  simp

theorem here_textSub_iff {t : Str} : (Re.here textSubRe t).isSome = true ↔
    ∃ sub post, Re.Lang subRe sub ∧ t = c!"[[" ++ sub ++ c!"]]" ++ post := by
  rw [Re.here_isSome]
  constructor
  · rintro ⟨m, r, rfl, h⟩
    obtain ⟨sub, hs, rfl⟩ := lang_textSub.1 h
    exact ⟨sub, r, hs, rfl⟩
  · rintro ⟨sub, post, hs, rfl⟩
    exact ⟨_, post, rfl, lang_textSub.2 ⟨sub, hs, rfl⟩⟩

theorem textSub_noOverlap {s m r : Str} {c : Caps} (h : Re.here textSubRe s = some (m, r, c)) (u t : Str)
    (e : s = u ++ t) (hu : u ≠ []) (hlt : u.length < m.length) : Re.here textSubRe t = none := by
  by_contra hne
  have hsome : (Re.here textSubRe t).isSome = true := by
    cases hh : Re.here textSubRe t with
    | none => exact absurd hh hne
    | some _ => rfl
  obtain ⟨sub', post', _, et⟩ := here_textSub_iff.1 hsome
  obtain ⟨es, hl⟩ := Re.here_sound h
  obtain ⟨sub, hs, rfl⟩ := lang_textSub.1 hl
  obtain ⟨w, rfl, _, hw⟩ := sub_shape hs
  have hbr : '[' ∉ '.' :: w := sub_outside hs (by decide)
  obtain ⟨v, e1, e2⟩ := split_le (es.symm.trans e) hlt.le
  have hv : v ≠ [] := by rintro rfl; rw [e1] at hlt; simp at hlt
  match u, hu with
  | [a], _ =>
    simp at e1
    rw [← e1.2] at e2
    rw [et] at e2
    simp at e2
  | a :: b :: u, _ =>
    simp at e1
    obtain ⟨rfl, rfl, e1⟩ := e1
    cases v with
    | nil => exact hv rfl
    | cons d v =>
      rw [et] at e2
      simp at e2
      have : d ∈ ('.' :: w) ++ c!"]]" := by simp only [List.cons_append, e1]; simp
      rw [← e2.1] at this
      rcases List.mem_append.1 this with h | h
      · exact hbr h
      · simp at h

theorem findIter_textSub (s : Str) : Re.findIter textSubRe s = s.tails.filterMap (Re.here textSubRe) := by
  refine Re.iterFrom_eq ?_ ?_ _ _ le_rfl
  · intro m hm
    obtain ⟨sub, _, rfl⟩ := lang_textSub.1 hm
    simp
  · intro s m r c h u t e hu hlt
    exact textSub_noOverlap h u t e hu hlt

end Art
