import Verif.Model.View
import Verif.Lemmas.Name

/-! Helper lemmas about unanchored search: the leftmost match, and when the first match is the longest. -/

namespace Art
namespace Re

/-! ## The leftmost match -/

theorem find_some {re : Re} : ∀ {s m r : Str} {c : Caps}, find re s = some (m, r, c) →
    ∃ pre, s = pre ++ (m ++ r) ∧ here re (m ++ r) = some (m, r, c) ∧
      ∀ a b, a ++ b = s → a.length < pre.length → here re b = none
  | [], m, r, c, h => by
    have h' : here re [] = some (m, r, c) := h
    have := here_sound h'
    refine ⟨[], this.1, ?_, by simp⟩
    rw [← this.1]; exact h'
  | x :: s, m, r, c, h => by
    have h' : (here re (x :: s)).or (find re s) = some (m, r, c) := h
    cases hh : here re (x :: s) with
    | some q =>
      rw [hh] at h'
      simp only [Option.some_or, Option.some.injEq] at h'
      subst h'
      have := here_sound hh
      refine ⟨[], this.1, ?_, by simp⟩
      rw [← this.1]; exact hh
    | none =>
      rw [hh] at h'
      simp only [Option.none_or] at h'
      obtain ⟨pre, e, h1, h2⟩ := find_some h'
      refine ⟨x :: pre, by rw [e]; rfl, h1, ?_⟩
      intro a b hab hl
      cases a with
      | nil => simp at hab; rw [hab]; exact hh
      | cons y a =>
        simp at hab
        exact h2 a b hab.2 (by simpa using hl)

theorem find_none {re : Re} : ∀ {s : Str}, find re s = none ↔ ∀ a b, a ++ b = s → here re b = none
  | [] => by
    constructor
    · intro h a b hab
      simp at hab; rw [hab.2]; exact h
    · intro h; exact h [] [] rfl
  | x :: s => by
    have e : find re (x :: s) = (here re (x :: s)).or (find re s) := rfl
    rw [e, Option.or_eq_none_iff, find_none (s := s)]
    constructor
    · rintro ⟨h1, h2⟩ a b hab
      cases a with
      | nil => simp at hab; rw [hab]; exact h1
      | cons y a => simp at hab; exact h2 a b hab.2
    · intro h
      exact ⟨h [] _ rfl, fun a b hab => h (x :: a) b (by simp [hab])⟩

theorem here_none {re : Re} {s : Str} : here re s = none ↔ ∀ m r, s = m ++ r → ¬ Lang re m := by
  have := here_isSome re s
  rw [← Option.not_isSome_iff_eq_none, this]
  push Not
  rfl

/-! ## First match is longest -/

/-- The first match of the list is a longest one. -/
def HeadMax (l : List Match) : Prop := ∀ x, l.head? = some x → ∀ y ∈ l, y.1.length ≤ x.1.length

theorem headMax_nil : HeadMax [] := by intro x h; simp at h

theorem headMax_single (x : Match) : HeadMax [x] := by
  intro y h z hz
  simp at h hz
  rw [hz, h]

theorem headMax_append {l₁ l₂ : List Match} (h₁ : HeadMax l₁) (h₂ : HeadMax l₂)
    (h : ∀ x ∈ l₁, ∀ y ∈ l₂, y.1.length ≤ x.1.length) : HeadMax (l₁ ++ l₂) := by
  cases l₁ with
  | nil => simpa using h₂
  | cons a l =>
    intro x hx y hy
    simp at hx
    subst hx
    rcases List.mem_append.1 hy with hy | hy
    · exact h₁ a rfl y hy
    · exact h a (by simp) y hy

theorem headMax_congr {l l' : List Match} (e : l.map (·.1) = l'.map (·.1)) (h : HeadMax l) : HeadMax l' := by
  intro x hx y hy
  have hx' : (l.map (·.1)).head? = some x.1 := by rw [e, List.head?_map, hx]; rfl
  rw [List.head?_map] at hx'
  obtain ⟨x0, h0, h1⟩ := Option.map_eq_some_iff.1 hx'
  have hy' : y.1 ∈ l.map (·.1) := by rw [e]; exact List.mem_map_of_mem hy
  obtain ⟨y0, h2, h3⟩ := List.mem_map.1 hy'
  rw [← h1, ← h3]
  exact h x0 h0 y0 h2

theorem headMax_map {l : List Match} {f : Match → Match} {k : Nat}
    (hf : ∀ x ∈ l, (f x).1.length = k + x.1.length) (h : HeadMax l) : HeadMax (l.map f) := by
  intro x hx y hy
  rw [List.head?_map] at hx
  obtain ⟨x0, h0, rfl⟩ := Option.map_eq_some_iff.1 hx
  obtain ⟨y0, h2, rfl⟩ := List.mem_map.1 hy
  have := h x0 h0 y0 h2
  rw [hf x0 (List.mem_of_head? h0), hf y0 h2]
  omega

/-- All matches in the list match the same prefix. -/
def Uni (l : List Match) : Prop := ∀ x ∈ l, ∀ y ∈ l, x.1 = y.1 ∧ x.2.1 = y.2.1

theorem uni_of_same {re : Re} {s : Str} (h : ∀ m r m' r', s = m ++ r → s = m' ++ r' → Lang re m →
    Lang re m' → m.length = m'.length) : Uni (ms re s) := by
  rintro ⟨m, r, c⟩ hx ⟨m', r', c'⟩ hy
  have a := ms_sound re _ _ _ _ hx
  have b := ms_sound re _ _ _ _ hy
  have hl := h m r m' r' a.1 b.1 a.2 b.2
  have := List.append_inj (a.1.symm.trans b.1) hl
  exact this

theorem headMax_flatMap {l : List Match} (hu : Uni l) {f : Match → List Match}
    (hm : ∀ x ∈ l, HeadMax (f x))
    (hf : ∀ x ∈ l, ∀ y ∈ l, x.1 = y.1 → x.2.1 = y.2.1 → (f x).map (·.1) = (f y).map (·.1)) :
    HeadMax (l.flatMap f) := by
  induction l with
  | nil => exact headMax_nil
  | cons a l ih =>
    rw [List.flatMap_cons]
    by_cases he : f a = []
    · rw [he, List.nil_append]
      exact ih (fun x hx y hy => hu x (by simp [hx]) y (by simp [hy])) (fun x hx => hm x (by simp [hx]))
        (fun x hx y hy => hf x (by simp [hx]) y (by simp [hy]))
    · intro x hx y hy
      obtain ⟨z, hz⟩ : ∃ z, (f a).head? = some z := by
        cases hfa : f a with
        | nil => exact absurd hfa he
        | cons z _ => exact ⟨z, rfl⟩
      rw [List.head?_append, hz] at hx
      simp at hx
      subst hx
      rw [← List.flatMap_cons] at hy
      obtain ⟨w, hw, hyw⟩ := List.mem_flatMap.1 hy
      have huw := hu a (by simp) w hw
      have e := hf a (by simp) w hw huw.1 huw.2
      have : y.1 ∈ (f a).map (·.1) := by rw [e]; exact List.mem_map_of_mem hyw
      obtain ⟨y0, h2, h3⟩ := List.mem_map.1 this
      rw [← h3]
      exact hm a (by simp) z hz y0 h2

theorem headMax_seq {a b : Re} {s : Str} (hu : Uni (ms a s)) (hb : ∀ t, HeadMax (ms b t)) :
    HeadMax (ms (seq a b) s) := by
  show HeadMax ((ms a s).flatMap _)
  refine headMax_flatMap hu ?_ ?_
  · rintro ⟨m, r, c⟩ _
    exact headMax_map (k := m.length) (by rintro ⟨x, y, z⟩ _; simp) (hb r)
  · rintro ⟨m, r, c⟩ _ ⟨m', r', c'⟩ _ h1 h2
    simp only at h1 h2
    subst h1; subst h2
    simp [List.map_map, Function.comp_def]

theorem headMax_cap {n : Nat} {a : Re} {s : Str} (h : HeadMax (ms a s)) : HeadMax (ms (cap n a) s) :=
  headMax_map (k := 0) (by rintro ⟨x, y, z⟩ _; simp) h

theorem headMax_iter {step : Str → List Match} (hu : ∀ s, Uni (step s)) :
    ∀ fuel s, HeadMax (iter true step fuel s)
  | 0, s => headMax_single _
  | fuel + 1, s => by
    show HeadMax (_ ++ _)
    refine headMax_append ?_ (headMax_single _) (by simp)
    refine headMax_flatMap (hu s) ?_ ?_
    · rintro ⟨m, r, c⟩ _
      show HeadMax (if m = [] then [] else _)
      split
      · exact headMax_nil
      · exact headMax_map (k := m.length) (by rintro ⟨x, y, z⟩ _; simp) (headMax_iter hu fuel r)
    · rintro ⟨m, r, c⟩ _ ⟨m', r', c'⟩ _ h1 h2
      simp only at h1 h2
      subst h1; subst h2
      show List.map _ (if m = [] then [] else _) = List.map _ (if m = [] then [] else _)
      split
      · rfl
      · simp [List.map_map, Function.comp_def]

theorem uni_ch {p : Char → Bool} {s : Str} : Uni (ms (ch p) s) :=
  uni_of_same (by rintro m r m' r' _ _ ⟨c, _, rfl⟩ ⟨c', _, rfl⟩; rfl)

theorem headMax_plus_ch {p : Char → Bool} (s : Str) : HeadMax (ms (plus (ch p)) s) :=
  headMax_seq uni_ch (fun t => headMax_iter (fun _ => uni_ch) t.length t)

theorem uni_litI {p s : Str} : Uni (ms (litI p) s) :=
  uni_of_same (by
    intro m r m' r' _ _ h h'
    rw [lang_litI] at h h'
    have a := congrArg List.length h
    have b := congrArg List.length h'
    simp at a b
    omega)

theorem here_max {re : Re} {s m r : Str} {c : Caps} (hm : HeadMax (ms re s))
    (h : here re s = some (m, r, c)) :
    s = m ++ r ∧ Lang re m ∧ ∀ m' r', s = m' ++ r' → Lang re m' → m'.length ≤ m.length := by
  have hs := here_sound h
  refine ⟨hs.1, hs.2, fun m' r' e hl => ?_⟩
  obtain ⟨c', hc⟩ := (ms_iff re s m' r').2 ⟨e, hl⟩
  exact hm _ h _ hc

end Re

open Re

theorem nameCharI_dash : nameCharI '-' = false := by decide

/-- Two splits at a dash, after words without a dash, are the same split. -/
theorem split_dash {w w' r r' : Str} (h : w ++ '-' :: r = w' ++ '-' :: r') (hw : '-' ∉ w) (hw' : '-' ∉ w') :
    w = w' ∧ r = r' := by
  induction w generalizing w' with
  | nil =>
    cases w' with
    | nil => simpa using h
    | cons a w' =>
      simp at h
      exact absurd (by rw [← h.1]; simp) hw'
  | cons a w ih =>
    cases w' with
    | nil =>
      simp at h
      exact absurd (by rw [h.1]; simp) hw
    | cons b w' =>
      simp at h
      have := ih h.2 (by simp at hw; exact hw.2) (by simp at hw'; exact hw'.2)
      exact ⟨by rw [h.1, this.1], this.2⟩

theorem lang_word_dash {m : Str} : Lang (.seq (.plus nameCh) (.litI c!"-")) m ↔ ∃ g, SegI g ∧ m = g ++ ['-'] := by
  constructor
  · rintro ⟨g, d, hg, hd, rfl⟩
    rw [lang_plus_nameCh] at hg
    rw [lang_dash] at hd
    exact ⟨g, hg, by rw [hd]⟩
  · rintro ⟨g, hg, rfl⟩
    exact ⟨g, ['-'], lang_plus_nameCh.2 hg, lang_dash.2 rfl, rfl⟩

theorem uni_word_dash {s : Str} : Uni (ms (.seq (.plus nameCh) (.litI c!"-")) s) := by
  refine uni_of_same ?_
  intro m r m' r' e e' h h'
  obtain ⟨g, hg, rfl⟩ := lang_word_dash.1 h
  obtain ⟨g', hg', rfl⟩ := lang_word_dash.1 h'
  rw [e] at e'
  have := split_dash (w := g) (w' := g') (by simpa using e') (segI_no_dash hg) (segI_no_dash hg')
  rw [this.1]

theorem headMax_segs_aux : ∀ fuel s, HeadMax ((iter true (ms (.seq (.plus nameCh) (.litI c!"-"))) fuel s).flatMap
    fun (m, r, c) => (ms (.plus nameCh) r).map fun (m', r', c') => (m ++ m', r', c ++ c'))
  | 0, s => by
    show HeadMax (List.flatMap _ [([], s, [])])
    simp only [List.flatMap_cons, List.flatMap_nil, List.append_nil]
    exact headMax_map (k := 0) (by rintro ⟨x, y, z⟩ _; simp) (headMax_plus_ch s)
  | fuel + 1, s => by
    show HeadMax (List.flatMap _ (_ ++ [([], s, [])]))
    rw [List.flatMap_append, List.flatMap_assoc]
    refine headMax_append ?_ ?_ ?_
    · refine headMax_flatMap uni_word_dash ?_ ?_
      · rintro ⟨m, r, c⟩ _
        show HeadMax (List.flatMap _ (if m = [] then [] else _))
        split
        · exact headMax_nil
        · rw [List.flatMap_map]
          refine headMax_congr (l := ((iter true (ms (.seq (.plus nameCh) (.litI c!"-"))) fuel r).flatMap
            fun (m, r, c) => (ms (.plus nameCh) r).map fun (m', r', c') => (m ++ m', r', c ++ c')).map
              fun x => (m ++ x.1, x.2)) ?_ (headMax_map (k := m.length) (by rintro ⟨x, y, z⟩ _; simp)
                (headMax_segs_aux fuel r))
          simp [List.map_flatMap, List.map_map, Function.comp_def, List.append_assoc]
      · rintro ⟨m, r, c⟩ _ ⟨m', r', c'⟩ _ h1 h2
        simp only at h1 h2
        subst h1; subst h2
        show List.map _ (List.flatMap _ (if m = [] then [] else _)) =
          List.map _ (List.flatMap _ (if m = [] then [] else _))
        split
        · rfl
        · simp [List.map_flatMap, List.flatMap_map, List.map_map, Function.comp_def]
    · simp only [List.flatMap_cons, List.flatMap_nil, List.append_nil]
      exact headMax_map (k := 0) (by rintro ⟨x, y, z⟩ _; simp) (headMax_plus_ch s)
    · intro x hx y hy
      simp only [List.flatMap_cons, List.flatMap_nil, List.append_nil] at hy
      obtain ⟨⟨y1, y2, y3⟩, hy1, rfl⟩ := List.mem_map.1 hy
      obtain ⟨⟨m, r, c⟩, hm, hx⟩ := List.mem_flatMap.1 hx
      have hm' := ms_sound _ _ _ _ _ hm
      obtain ⟨g, hg, rfl⟩ := lang_word_dash.1 hm'.2
      have hxl : (g ++ ['-']).length ≤ x.1.length := by
        have hne : ¬ (g ++ ['-'] = []) := by simp
        simp only [hne, if_false] at hx
        rw [List.flatMap_map] at hx
        obtain ⟨⟨m', r', c'⟩, _, hx⟩ := List.mem_flatMap.1 hx
        obtain ⟨⟨m'', r'', c''⟩, _, rfl⟩ := List.mem_map.1 hx
        simp
      have hy' := ms_sound _ _ _ _ _ hy1
      have hyg := lang_plus_nameCh.1 hy'.2
      show ([] ++ y1).length ≤ _
      rw [List.nil_append]
      by_contra hlt
      -- then the word would contain the dash
      have hle : g.length < y1.length := by simp at hxl hlt; omega
      have e : y1 ++ y2 = g ++ '-' :: r := by rw [← hy'.1, hm'.1]; simp
      have : '-' ∈ y1 := by
        have h1 : (y1 ++ y2)[g.length]? = some '-' := by rw [e]; simp
        rw [List.getElem?_append_left hle] at h1
        exact List.mem_of_getElem? h1
      exact segI_no_dash hyg this

theorem headMax_nameRe (s : Str) : HeadMax (ms nameRe s) := by
  unfold nameRe
  refine headMax_seq ?_ (fun t => headMax_seq uni_litI (fun t => headMax_segs_aux t.length t))
  refine uni_of_same ?_
  intro m r m' r' _ _ h h'
  have key : ∀ x, Lang (.alt (.litI c!"REQ") (.alt (.litI c!"SPC") (.litI c!"TST"))) x → x.length = 3 := by
    intro x hx
    rcases hx with h | h | h <;> rw [lang_litI] at h <;> simpa using congrArg List.length h
  rw [key m h, key m' h']

/-! ## `NAME_URL` -/

/-- A name cannot begin inside the optional prefix `artifacts/`. -/
theorem no_name_in_prefix {p w a b : Str} {x : Str} (hp : p.map foldC = (c!"artifacts/").map foldC)
    (hx : Lang nameRe x) (e : p ++ w = a ++ (x ++ b)) (hl : a.length < 10) : False := by
  obtain ⟨t, segs, ht, hne, _, rfl⟩ := lang_nameRe.1 hx
  obtain ⟨z, hz⟩ : ∃ z, dashed segs = '-' :: z := by
    cases segs with
    | nil => exact absurd rfl hne
    | cons g l => exact ⟨_, dashed_cons g l⟩
  rw [hz] at e
  have hpl : p.length = 10 := by simpa using congrArg List.length hp
  match p, hpl with
  | [p0, p1, p2, p3, p4, p5, p6, p7, p8, p9], _ =>
    obtain ⟨t0, t1, t2, rfl⟩ := length3 (tyFold_length ht)
    simp only [List.map_cons, List.map_nil, List.cons.injEq, and_true] at hp
    obtain ⟨h0, h1, h2, h3, h4, h5, h6, h7, h8, h9⟩ := hp
    have hf : foldC '/' = '/' := by decide
    unfold TyFold at ht
    simp only [List.map_cons, List.map_nil, List.cons.injEq, and_true] at ht
    match a, hl with
    | [], _ =>
      simp at e
      obtain ⟨rfl, rfl, rfl, _⟩ := e
      rw [h0, h1, h2] at ht; revert ht; decide
    | [_], _ =>
      simp at e
      obtain ⟨_, rfl, rfl, rfl, _⟩ := e
      rw [h1, h2, h3] at ht; revert ht; decide
    | [_, _], _ =>
      simp at e
      obtain ⟨_, _, rfl, rfl, rfl, _⟩ := e
      rw [h2, h3, h4] at ht; revert ht; decide
    | [_, _, _], _ =>
      simp at e
      obtain ⟨_, _, _, rfl, rfl, rfl, _⟩ := e
      rw [h3, h4, h5] at ht; revert ht; decide
    | [_, _, _, _], _ =>
      simp at e
      obtain ⟨_, _, _, _, rfl, rfl, rfl, _⟩ := e
      rw [h4, h5, h6] at ht; revert ht; decide
    | [_, _, _, _, _], _ =>
      simp at e
      obtain ⟨_, _, _, _, _, rfl, rfl, rfl, _⟩ := e
      rw [h5, h6, h7] at ht; revert ht; decide
    | [_, _, _, _, _, _], _ =>
      simp at e
      obtain ⟨_, _, _, _, _, _, rfl, rfl, rfl, _⟩ := e
      rw [h6, h7, h8] at ht; revert ht; decide
    | [_, _, _, _, _, _, _], _ =>
      simp at e
      obtain ⟨_, _, _, _, _, _, _, rfl, rfl, rfl, _⟩ := e
      rw [h7, h8, h9] at ht; revert ht; decide
    | [_, _, _, _, _, _, _, _], _ =>
      simp at e
      obtain ⟨_, _, _, _, _, _, _, _, rfl, rfl, _⟩ := e
      rw [h8, h9] at ht
      rcases ht with ⟨a, b, _⟩ | ⟨a, b, _⟩ | ⟨a, b, _⟩ <;> revert a b <;> decide
    | [_, _, _, _, _, _, _, _, _], _ =>
      simp at e
      obtain ⟨_, _, _, _, _, _, _, _, _, rfl, _⟩ := e
      rw [h9] at ht
      rcases ht with ⟨a, _⟩ | ⟨a, _⟩ | ⟨a, _⟩ <;> revert a <;> decide

theorem caps_litI {p s m r : Str} {c : Caps} (h : (m, r, c) ∈ ms (litI p) s) : c = [] := by
  induction p generalizing s m r c with
  | nil => simp [litI, ms] at h; exact h.2.2
  | cons a p ih =>
    have h' : (m, r, c) ∈ ms (seq (ch (fun x => foldC x == foldC a)) (litI p)) s := h
    obtain ⟨⟨m1, r1, c1⟩, h1, h2⟩ := List.mem_flatMap.1 h'
    obtain ⟨⟨m2, r2, c2⟩, h3, h4⟩ := List.mem_map.1 h2
    have e := ih h3
    simp only [Prod.mk.injEq] at h4
    cases s with
    | nil => simp [ms] at h1
    | cons x s =>
      simp only [ms] at h1
      split at h1
      · simp at h1
        rw [← h4.2.2, h1.2.2, e]; rfl
      · simp at h1

/-- The first name in the string, leftmost and then longest. -/
structure FirstName (s w : Str) : Prop where
  ex : ∃ pre post, s = pre ++ (w ++ post) ∧ Lang nameRe w ∧
    (∀ a x b, s = a ++ (x ++ b) → Lang nameRe x → pre.length ≤ a.length) ∧
    (∀ x b, w ++ post = x ++ b → Lang nameRe x → x.length ≤ w.length)

theorem ms_nameUrl (t : Str) : ms nameUrlRe t =
    ms (.seq (.litI c!"artifacts/") (.cap 1 nameRe)) t ++ ms (.cap 1 nameRe) t := by
  show ((ms (.litI c!"artifacts/") t) ++ [([], t, [])]).flatMap _ = _
  rw [List.flatMap_append]
  congr 1
  simp

theorem here_nameUrl {t m r : Str} {c : Caps} (h : here nameUrlRe t = some (m, r, c)) :
    ∃ p w, t = p ++ (w ++ r) ∧ c.get 1 = some w ∧ Lang nameRe w ∧
      (p = [] ∨ p.map foldC = (c!"artifacts/").map foldC) ∧
      (∀ x b, w ++ r = x ++ b → Lang nameRe x → x.length ≤ w.length) := by
  unfold here at h
  rw [ms_nameUrl, List.head?_append] at h
  cases hA : (ms (.seq (.litI c!"artifacts/") (.cap 1 nameRe)) t).head? with
  | some q =>
    rw [hA] at h
    simp only [Option.some_or, Option.some.injEq] at h
    subst h
    have hm := List.mem_of_head? hA
    obtain ⟨⟨m1, r1, c1⟩, h1, h2⟩ := List.mem_flatMap.1 hm
    obtain ⟨⟨m2, r2, c2⟩, h3, h4⟩ := List.mem_map.1 h2
    obtain ⟨⟨m3, r3, c3⟩, h5, h6⟩ := List.mem_map.1 h3
    simp only [Prod.mk.injEq] at h4 h6
    obtain ⟨rfl, rfl, rfl⟩ := h6
    obtain ⟨rfl, rfl, rfl⟩ := h4
    have e1 := caps_litI h1
    subst e1
    have s1 := ms_sound _ _ _ _ _ h1
    have s2 := ms_sound _ _ _ _ _ h5
    refine ⟨m1, m3, by rw [s1.1, s2.1], by simp [Caps.get], s2.2, Or.inr (lang_litI.1 s1.2), ?_⟩
    intro x b e hx
    have hmax : HeadMax (ms (.seq (.litI c!"artifacts/") (.cap 1 nameRe)) t) :=
      headMax_seq uni_litI (fun t => headMax_cap (headMax_nameRe t))
    have := (here_max hmax hA).2.2 (m1 ++ x) b (by rw [s1.1, s2.1, e]; simp) ⟨m1, x, s1.2, hx, rfl⟩
    simpa using this
  | none =>
    rw [hA] at h
    simp only [Option.none_or] at h
    have hm := List.mem_of_head? h
    obtain ⟨⟨m3, r3, c3⟩, h5, h6⟩ := List.mem_map.1 hm
    simp only [Prod.mk.injEq] at h6
    obtain ⟨rfl, rfl, rfl⟩ := h6
    have s2 := ms_sound _ _ _ _ _ h5
    refine ⟨[], m3, s2.1, by simp [Caps.get], s2.2, Or.inl rfl, ?_⟩
    intro x b e hx
    exact (here_max (re := .cap 1 nameRe) (headMax_cap (headMax_nameRe t)) h).2.2 x b (s2.1.trans e) hx

theorem here_nameUrl_none {t : Str} (h : here nameUrlRe t = none) {x b : Str} (e : t = x ++ b) :
    ¬ Lang nameRe x := fun hx =>
  here_none.1 h x b e ⟨[], x, Or.inr rfl, hx, rfl⟩

theorem find_nameUrl {s m r : Str} {c : Caps} (h : find nameUrlRe s = some (m, r, c)) :
    ∃ w, c.get 1 = some w ∧ FirstName s w := by
  obtain ⟨pre, e, h1, h2⟩ := find_some h
  obtain ⟨p, w, e2, h3, h4, h5, h6⟩ := here_nameUrl h1
  refine ⟨w, h3, pre ++ p, r, by rw [e, e2]; simp, h4, ?_, h6⟩
  intro a x b e3 hx
  by_contra hlt
  rw [List.length_append] at hlt
  by_cases hl : a.length < pre.length
  · exact here_nameUrl_none (h2 a (x ++ b) e3.symm hl) rfl hx
  · rcases h5 with rfl | h5
    · simp at hlt; omega
    · have hp : p.length = 10 := by simpa using congrArg List.length h5
      obtain ⟨a', rfl⟩ : ∃ a', a = pre ++ a' := by
        have : pre ++ (m ++ r) = a ++ (x ++ b) := by rw [← e, e3]
        rcases List.append_eq_append_iff.1 this with ⟨z, hz⟩ | ⟨z, hz⟩
        · exact ⟨z, hz.1⟩
        · have := congrArg List.length hz.1
          simp at this
          have hz0 : z = [] := List.length_eq_zero_iff.1 (by omega)
          exact ⟨[], by rw [hz.1, hz0]; simp⟩
      refine no_name_in_prefix (p := p) (w := w ++ r) (a := a') (b := b) h5 hx ?_ (by simp at hlt; omega)
      have : pre ++ (m ++ r) = pre ++ a' ++ (x ++ b) := by rw [← e, e3]
      rw [List.append_assoc] at this
      rw [← e2]
      exact List.append_cancel_left this

theorem find_nameUrl_none {s : Str} : find nameUrlRe s = none ↔ ∀ a x b, s = a ++ (x ++ b) → ¬ Lang nameRe x := by
  constructor
  · intro h a x b e
    exact here_nameUrl_none (find_none.1 h a (x ++ b) e.symm) rfl
  · intro h
    refine find_none.2 fun a t e => ?_
    refine here_none.2 fun m r e2 hm => ?_
    obtain ⟨p, w, _, hw, rfl⟩ := hm
    exact h (a ++ p) w r (by rw [← e, e2]; simp) hw

theorem firstName_unique {s w w' : Str} (h : FirstName s w) (h' : FirstName s w') : w = w' := by
  obtain ⟨pre, post, e, hw, h1, h2⟩ := h.ex
  obtain ⟨pre', post', e', hw', h1', h2'⟩ := h'.ex
  have hl := Nat.le_antisymm (h1 _ _ _ e' hw') (h1' _ _ _ e hw)
  obtain ⟨_, e3⟩ := List.append_inj (e.symm.trans e') hl
  have hl2 := Nat.le_antisymm (h2' _ _ e3.symm hw) (h2 _ _ e3 hw')
  exact (List.append_inj e3 hl2).1

theorem find_nameUrl_of_first {s w : Str} (h : FirstName s w) : ∃ m r c, find nameUrlRe s = some (m, r, c) ∧
    c.get 1 = some w := by
  cases hf : find nameUrlRe s with
  | none =>
    obtain ⟨pre, post, e, hw, _⟩ := h.ex
    exact absurd hw (find_nameUrl_none.1 hf _ _ _ e)
  | some q =>
    obtain ⟨m, r, c⟩ := q
    obtain ⟨w', h1, h2⟩ := find_nameUrl hf
    exact ⟨m, r, c, rfl, by rw [h1, firstName_unique h h2]⟩

/-! ## `EDIT_URL` -/

/-- The first `edit/` followed by a digit, with the longest run of digits. -/
structure FirstEdit (nd : Char → Bool) (s d : Str) : Prop where
  ex : ∃ pre p post, s = pre ++ (p ++ (d ++ post)) ∧ p.map foldC = c!"edit/" ∧
    d ≠ [] ∧ (∀ c ∈ d, digitU nd c = true) ∧
    (∀ a q x b, s = a ++ (q ++ (x :: b)) → q.map foldC = c!"edit/" → digitU nd x = true → pre.length ≤ a.length) ∧
    (∀ x b, post = x :: b → digitU nd x = false)

theorem lang_edit {nd : Char → Bool} {m : Str} : Lang (editUrlRe nd) m ↔
    ∃ p d, p.map foldC = c!"edit/" ∧ d ≠ [] ∧ (∀ c ∈ d, digitU nd c = true) ∧ m = p ++ d := by
  have hf : (c!"edit/").map foldC = c!"edit/" := by decide
  constructor
  · rintro ⟨p, d, hp, hd, rfl⟩
    have hd' := lang_plus_ch.1 hd
    exact ⟨p, d, (lang_litI.1 hp).trans hf, hd'.1, hd'.2, rfl⟩
  · rintro ⟨p, d, hp, h1, h2, rfl⟩
    exact ⟨p, d, lang_litI.2 (hp.trans hf.symm), lang_plus_ch.2 ⟨h1, h2⟩, rfl⟩

theorem find_edit {nd : Char → Bool} {s m r : Str} {c : Caps} (h : find (editUrlRe nd) s = some (m, r, c)) :
    ∃ d, c.get 1 = some d ∧ FirstEdit nd s d := by
  have hf : (c!"edit/").map foldC = c!"edit/" := by decide
  obtain ⟨pre, e, h1, h2⟩ := find_some h
  have hm := List.mem_of_head? h1
  obtain ⟨⟨m1, r1, c1⟩, g1, g2⟩ := List.mem_flatMap.1 hm
  obtain ⟨⟨m2, r2, c2⟩, g3, g4⟩ := List.mem_map.1 g2
  obtain ⟨⟨m3, r3, c3⟩, g5, g6⟩ := List.mem_map.1 g3
  simp only [Prod.mk.injEq] at g4 g6
  obtain ⟨rfl, rfl, rfl⟩ := g6
  obtain ⟨rfl, rfl, rfl⟩ := g4
  have e1 := caps_litI g1
  subst e1
  have s1 := ms_sound _ _ _ _ _ g1
  have s2 := ms_sound _ _ _ _ _ g5
  have hd := lang_plus_ch.1 s2.2
  have hp := (lang_litI.1 s1.2).trans hf
  refine ⟨m3, by simp [Caps.get], pre, m1, r3, by rw [e]; simp, hp, hd.1, hd.2, ?_, ?_⟩
  · intro a q x b e3 hq hx
    by_contra hlt
    have := h2 a (q ++ x :: b) e3.symm (by omega)
    exact here_none.1 this (q ++ [x]) b (by simp) (lang_edit.2 ⟨q, [x], hq, by simp, by simpa using hx, rfl⟩)
  · rintro x b rfl
    by_contra hx
    have hx' : digitU nd x = true := by simpa using hx
    have hmax : HeadMax (ms (editUrlRe nd) (m1 ++ m3 ++ x :: b)) :=
      headMax_seq uni_litI (fun t => headMax_cap (headMax_plus_ch t))
    have := (here_max hmax h1).2.2 (m1 ++ (m3 ++ [x])) b (by simp) (lang_edit.2 ⟨m1, m3 ++ [x], hp, by simp, by
      intro c hc
      rcases List.mem_append.1 hc with hc | hc
      · exact hd.2 c hc
      · simp at hc; rw [hc]; exact hx', rfl⟩)
    simp at this
    omega

theorem find_edit_none {nd : Char → Bool} {s : Str} : find (editUrlRe nd) s = none ↔
    ∀ a q x b, s = a ++ (q ++ (x :: b)) → q.map foldC = c!"edit/" → digitU nd x = false := by
  constructor
  · intro h a q x b e hq
    by_contra hx
    have hx' : digitU nd x = true := by simpa using hx
    exact here_none.1 (find_none.1 h a (q ++ x :: b) e.symm) (q ++ [x]) b (by simp)
      (lang_edit.2 ⟨q, [x], hq, by simp, by simpa using hx', rfl⟩)
  · intro h
    refine find_none.2 fun a t e => ?_
    refine here_none.2 fun m r e2 hm => ?_
    obtain ⟨p, d, hp, h1, h2, rfl⟩ := lang_edit.1 hm
    cases d with
    | nil => exact h1 rfl
    | cons x d =>
      have := h a p x (d ++ r) (by rw [← e, e2]; simp) hp
      rw [h2 x (by simp)] at this
      simp at this

theorem firstEdit_unique {nd : Char → Bool} {s d d' : Str} (h : FirstEdit nd s d) (h' : FirstEdit nd s d') : d = d' := by
  obtain ⟨pre, p, post, e, hp, hne, hd, h1, h2⟩ := h.ex
  obtain ⟨pre', p', post', e', hp', hne', hd', h1', h2'⟩ := h'.ex
  have hl : pre.length = pre'.length := by
    cases d with
    | nil => exact absurd rfl hne
    | cons x d =>
      cases d' with
      | nil => exact absurd rfl hne'
      | cons x' d' =>
        exact Nat.le_antisymm (h1 pre' p' x' (d' ++ post') (by rw [e']; simp) hp' (hd' x' (by simp)))
          (h1' pre p x (d ++ post) (by rw [e]; simp) hp (hd x (by simp)))
  have e3 := (List.append_inj (e.symm.trans e') hl).2
  have hl2 : p.length = p'.length := by
    have a := congrArg List.length hp
    have b := congrArg List.length hp'
    simp at a b; omega
  have e4 := (List.append_inj e3 hl2).2
  clear e3 h1 h1' e e' hl hl2 hne hne' h h'
  induction d generalizing d' with
  | nil =>
    cases d' with
    | nil => rfl
    | cons x d' =>
      have := h2 x (d' ++ post') (by simpa using e4)
      rw [hd' x (by simp)] at this
      simp at this
  | cons y d ih =>
    cases d' with
    | nil =>
      have := h2' y (d ++ post) (by simpa using e4.symm)
      rw [hd y (by simp)] at this
      simp at this
    | cons x d' =>
      simp at e4
      rw [e4.1, ih (fun c hc => hd c (by simp [hc])) (fun c hc => hd' c (by simp [hc])) e4.2]

theorem find_edit_of_first {nd : Char → Bool} {s d : Str} (h : FirstEdit nd s d) : ∃ m r c,
    find (editUrlRe nd) s = some (m, r, c) ∧ c.get 1 = some d := by
  cases hf : find (editUrlRe nd) s with
  | none =>
    obtain ⟨pre, p, post, e, hp, hne, hd, _⟩ := h.ex
    cases d with
    | nil => exact absurd rfl hne
    | cons x d =>
      have := find_edit_none.1 hf pre p x (d ++ post) (by rw [e]; simp) hp
      rw [hd x (by simp)] at this
      simp at this
  | some q =>
    obtain ⟨m, r, c⟩ := q
    obtain ⟨w', h1, h2⟩ := find_edit hf
    exact ⟨m, r, c, rfl, by rw [h1, firstEdit_unique h h2]⟩

/-! ## Decimal numbers -/

theorem decVal_append (a : Str) (c : Char) : decVal (a ++ [c]) = 10 * decVal a + (c.toNat - 48) := by
  simp [decVal]

theorem decVal_showNat (n : Nat) : decVal (showNat n) = n := by
  induction n using Nat.strong_induction_on with
  | _ n ih =>
    unfold showNat
    rw [Nat.toDigits_eq_if (by decide)]
    split
    · rename_i h
      simp [decVal, Nat.toNat_digitChar_sub_48_of_lt_ten h]
    · rename_i h
      rw [decVal_append]
      have := ih (n / 10) (by omega)
      unfold showNat at this
      rw [this, Nat.toNat_digitChar_sub_48_of_lt_ten (Nat.mod_lt _ (by decide))]
      omega

theorem showNat_ne_nil (n : Nat) : showNat n ≠ [] := by
  unfold showNat
  rw [Nat.toDigits_eq_if (by decide)]
  split <;> simp

theorem showNat_digit {n : Nat} {c : Char} (h : c ∈ showNat n) : asciiDigit c = true := by
  have := Nat.isDigit_of_mem_toDigits (by decide) (by decide) h
  unfold Char.isDigit at this
  unfold asciiDigit
  simpa [UInt32.le_iff_toNat_le] using this

end Art
