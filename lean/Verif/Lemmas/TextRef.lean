import Verif.Model.Project
import Verif.Lemmas.ScanSrc
import Mathlib.Data.List.Infix

/-! Helper lemmas: the pattern of soft references in text. -/

namespace Art

/-- The text of an optional subname. -/
def subText : Option Str → Str
  | some s => s
  | none => []

theorem lang_textRef {x : Str} : Re.Lang textRefRe x ↔ ∃ n s, Re.Lang nameRe n ∧ (∀ y, s = some y → Re.Lang subRe y) ∧
    x = c!"[[" ++ n ++ subText s ++ c!"]]" := by
  unfold textRefRe
  constructor
  · rintro ⟨a, b, ha, ⟨n, d, hn, ⟨s, e, hs, he, rfl⟩, rfl⟩, rfl⟩
    rw [lang_litI_plain (by decide)] at ha he
    subst ha he
    rcases Re.lang_opt.1 hs with hs | rfl
    · exact ⟨n, some s, hn, by rintro y ⟨⟩; exact hs, by simp [subText]⟩
    · exact ⟨n, none, hn, by simp, by simp [subText]⟩
  · rintro ⟨n, s, hn, hs, rfl⟩
    refine ⟨c!"[[", n ++ subText s ++ c!"]]", (lang_litI_plain (by decide)).2 rfl, ⟨n, subText s ++ c!"]]", hn,
      ⟨subText s, c!"]]", ?_, (lang_litI_plain (by decide)).2 rfl, rfl⟩, by simp⟩, by simp⟩
    cases s with
    | none => exact Re.lang_opt.2 (Or.inr rfl)
    | some y => exact Re.lang_opt.2 (Or.inl (hs y rfl))

theorem here_textRef_caps {t : Str} {x : Match} (h : Re.here textRefRe t = some x) :
    ∃ n s, Caps.get x.2.2 1 = some n ∧ Caps.get x.2.2 2 = s ∧ Re.Lang nameRe n ∧ (∀ y, s = some y → Re.Lang subRe y) ∧
      t = c!"[[" ++ n ++ subText s ++ c!"]]" ++ x.2.1 := by
  have hm : x ∈ Re.ms textRefRe t := List.mem_of_head? h
  unfold textRefRe Re.opt at hm
  simp only [Re.ms, List.mem_flatMap, List.mem_map, Prod.exists, List.mem_append, List.mem_singleton] at hm
  obtain ⟨m1, r1, c1, h1, m2, r2, c2, ⟨m3, r3, c3, ⟨m4, r4, c4, h4, e4⟩, m5, r5, c5, ⟨m6, r6, c6, h6, m7, r7, c7, h7, e7⟩, e5⟩, rfl⟩ := hm
  have n1 := Re.ms_noCap (Re.noCap_litI _) _ _ h1
  have n4 := Re.ms_noCap noCap_nameRe _ _ h4
  have n7 := Re.ms_noCap (Re.noCap_litI _) _ _ h7
  obtain ⟨e1', l1⟩ := Re.ms_sound _ _ _ _ _ h1
  obtain ⟨e4', l4⟩ := Re.ms_sound _ _ _ _ _ h4
  obtain ⟨e7', l7⟩ := Re.ms_sound _ _ _ _ _ h7
  rw [lang_litI_plain (by decide)] at l1 l7
  simp only [Prod.mk.injEq] at e4 e5 e7 n1 n4 n7
  obtain ⟨rfl, rfl, rfl⟩ := e4
  obtain ⟨rfl, rfl, rfl⟩ := e7
  obtain ⟨rfl, rfl, rfl⟩ := e5
  subst n1 n4 n7
  rcases h6 with ⟨m8, r8, c8, h8, e8⟩ | e6
  · have n8 := Re.ms_noCap noCap_subRe _ _ h8
    obtain ⟨e8', l8⟩ := Re.ms_sound _ _ _ _ _ h8
    simp only [Prod.mk.injEq] at e8 n8
    obtain ⟨rfl, rfl, rfl⟩ := e8
    subst n8
    refine ⟨m4, some m8, rfl, rfl, l4, by rintro y ⟨⟩; exact l8, ?_⟩
    rw [e1', e4', e8', e7', l1, l7]
    simp [subText]
  · simp only [Prod.mk.injEq] at e6
    obtain ⟨rfl, rfl, rfl⟩ := e6
    refine ⟨m4, none, rfl, rfl, l4, by simp, ?_⟩
    rw [e1', e4', e7', l1, l7]
    simp [subText]

theorem here_textRef_iff {t : Str} : (Re.here textRefRe t).isSome = true ↔
    ∃ n s post, Re.Lang nameRe n ∧ (∀ y, s = some y → Re.Lang subRe y) ∧ t = c!"[[" ++ n ++ subText s ++ c!"]]" ++ post := by
  rw [Re.here_isSome]
  constructor
  · rintro ⟨m, r, rfl, h⟩
    obtain ⟨n, s, hn, hs, rfl⟩ := lang_textRef.1 h
    exact ⟨n, s, r, hn, hs, rfl⟩
  · rintro ⟨n, s, post, hn, hs, rfl⟩
    exact ⟨_, post, rfl, lang_textRef.2 ⟨n, s, hn, hs, rfl⟩⟩

theorem refBody_noBracket {n : Str} {s : Option Str} (hn : Re.Lang nameRe n) (hs : ∀ y, s = some y → Re.Lang subRe y) :
    '[' ∉ n ++ subText s ∧ ']' ∉ n ++ subText s := by
  constructor <;> intro h <;> rcases List.mem_append.1 h with h | h
  · exact name_outside hn (by decide) h
  · cases s with
    | none => simp [subText] at h
    | some y => exact sub_outside (hs y rfl) (by decide) h
  · exact name_outside hn (by decide) h
  · cases s with
    | none => simp [subText] at h
    | some y => exact sub_outside (hs y rfl) (by decide) h

/-- A name and a subname cannot be confused. -/
theorem ref_unique {n n' : Str} {s s' : Option Str} (hn : Re.Lang nameRe n) (hn' : Re.Lang nameRe n') (hs : ∀ y, s = some y → Re.Lang subRe y)
    (hs' : ∀ y, s' = some y → Re.Lang subRe y) (e : n ++ subText s = n' ++ subText s') : n = n' ∧ s = s' := by
  have hd : ∀ {m : Str}, Re.Lang nameRe m → '.' ∉ m := fun hm => name_outside hm (by decide)
  cases s with
  | none =>
    cases s' with
    | none => simp [subText] at e; exact ⟨e, rfl⟩
    | some y =>
      obtain ⟨w, rfl, _⟩ := sub_shape (hs' y rfl)
      exact absurd (by rw [show n = n ++ subText none from by simp [subText], e]; simp [subText]) (hd hn)
  | some y =>
    obtain ⟨w, rfl, _⟩ := sub_shape (hs y rfl)
    cases s' with
    | none => exact absurd (by rw [show n' = n' ++ subText none from by simp [subText], ← e]; simp [subText]) (hd hn')
    | some y' =>
      obtain ⟨w', rfl, _⟩ := sub_shape (hs' y' rfl)
      obtain ⟨h1, h2⟩ := until_unique (hd hn) (hd hn') e
      exact ⟨h1, by rw [h2]⟩

theorem textRef_noOverlap {s m r : Str} {c : Caps} (h : Re.here textRefRe s = some (m, r, c)) (u t : Str)
    (e : s = u ++ t) (hu : u ≠ []) (hlt : u.length < m.length) : Re.here textRefRe t = none := by
  by_contra hne
  have hsome : (Re.here textRefRe t).isSome = true := by
    cases hh : Re.here textRefRe t with
    | none => exact absurd hh hne
    | some _ => rfl
  obtain ⟨n', s', post', _, _, et⟩ := here_textRef_iff.1 hsome
  obtain ⟨es, hl⟩ := Re.here_sound h
  obtain ⟨n, sb, hn, hs, rfl⟩ := lang_textRef.1 hl
  have hbr := (refBody_noBracket hn hs).1
  have hnn := name_ne_nil hn
  obtain ⟨v, e1, e2⟩ := split_le (es.symm.trans e) hlt.le
  have hv : v ≠ [] := by rintro rfl; rw [e1] at hlt; simp at hlt
  match u, hu with
  | [a], _ =>
    simp at e1
    rw [← e1.2] at e2
    rw [et] at e2
    cases n with
    | nil => exact hnn rfl
    | cons d n =>
      simp at e2
      exact hbr (by rw [e2.1]; simp)
  | a :: b :: u, _ =>
    simp at e1
    obtain ⟨rfl, rfl, e1⟩ := e1
    cases v with
    | nil => exact hv rfl
    | cons d v =>
      rw [et] at e2
      simp at e2
      have : d ∈ (n ++ subText sb) ++ c!"]]" := by
        have : n ++ subText sb ++ c!"]]" = u ++ d :: v := by rw [← e1]; simp
        rw [this]; simp
      rw [← e2.1] at this
      rcases List.mem_append.1 this with h | h
      · exact hbr h
      · simp at h

theorem findIter_textRef (s : Str) : Re.findIter textRefRe s = s.tails.filterMap (Re.here textRefRe) := by
  refine Re.iterFrom_eq ?_ ?_ _ _ le_rfl
  · intro m hm
    obtain ⟨n, s, _, _, rfl⟩ := lang_textRef.1 hm
    simp
  · intro s m r c h u t e hu hlt
    exact textRef_noOverlap h u t e hu hlt

/-- The references found in a text are those occurring in it. -/
theorem mem_findIter_textRef (text : Str) (n : Str) (s : Option Str) :
    (∃ x ∈ Re.findIter textRefRe text, Caps.get x.2.2 1 = some n ∧ Caps.get x.2.2 2 = s) ↔
      Re.Lang nameRe n ∧ (∀ y, s = some y → Re.Lang subRe y) ∧ ∃ pre post, text = pre ++ c!"[[" ++ (n ++ subText s) ++ c!"]]" ++ post := by
  rw [findIter_textRef]
  constructor
  · rintro ⟨x, hx, h1, h2⟩
    obtain ⟨t, ht, hh⟩ := List.mem_filterMap.1 hx
    obtain ⟨pre, rfl⟩ := (List.mem_tails _ _).1 ht
    obtain ⟨n', s', g1, g2, g3, g4, g5⟩ := here_textRef_caps hh
    rw [h1] at g1
    cases g1
    rw [h2] at g2
    subst g2
    exact ⟨g3, g4, pre, x.2.1, by rw [g5]; simp⟩
  · rintro ⟨hn, hs, pre, post, e⟩
    obtain ⟨x, hx⟩ := Option.isSome_iff_exists.1 (here_textRef_iff.2 ⟨n, s, post, hn, hs, rfl⟩)
    obtain ⟨n', s', g1, g2, g3, g4, g5⟩ := here_textRef_caps hx
    have e' : (n ++ subText s) ++ ']' :: (']' :: post) = (n' ++ subText s') ++ ']' :: (']' :: x.2.1) := by simpa using g5
    obtain ⟨h1, h2⟩ := until_unique (refBody_noBracket hn hs).2 (refBody_noBracket g3 g4).2 e'
    obtain ⟨rfl, rfl⟩ := ref_unique hn g3 hs g4 h1
    refine ⟨x, List.mem_filterMap.2 ⟨_, (List.mem_tails _ _).2 ⟨pre, ?_⟩, hx⟩, g1, g2⟩
    rw [e]; simp

/-- Every found match has its groups. -/
theorem findIter_textRef_caps {text : Str} {x : Match} (hx : x ∈ Re.findIter textRefRe text) :
    ∃ n s, Caps.get x.2.2 1 = some n ∧ Caps.get x.2.2 2 = s := by
  rw [findIter_textRef] at hx
  obtain ⟨t, _, hh⟩ := List.mem_filterMap.1 hx
  obtain ⟨n, s, g1, g2, _⟩ := here_textRef_caps hh
  exact ⟨n, s, g1, g2⟩

end Art
