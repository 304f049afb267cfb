import Verif.Model.Regex

set_option linter.unusedSimpArgs false
/-! The ordered matcher is sound and complete for the declarative language. -/

namespace Art.Re

theorem iter_sound {P : Str → Prop} {g : Bool} {step : Str → List Match}
    (hstep : ∀ s m r c, (m, r, c) ∈ step s → s = m ++ r ∧ P m) :
    ∀ fuel s m r c, (m, r, c) ∈ iter g step fuel s →
      s = m ++ r ∧ ∃ l : List Str, (∀ x ∈ l, P x) ∧ m = l.flatten := by
  intro fuel
  induction fuel with
  | zero =>
    intro s m r c h
    simp [iter] at h
    obtain ⟨rfl, rfl, rfl⟩ := h
    exact ⟨rfl, [], by simp, rfl⟩
  | succ n ih =>
    intro s m r c h
    have key : (m, r, c) = ([], s, []) ∨ ∃ m1 r1 c1, (m1, r1, c1) ∈ step s ∧
        ∃ m2 c2, (m2, r, c2) ∈ iter g step n r1 ∧ m = m1 ++ m2 := by
      simp only [iter] at h
      cases g
      all_goals
        simp only [if_true, Bool.false_eq_true, if_false, List.mem_append, List.mem_cons,
          List.not_mem_nil, or_false, List.mem_flatMap] at h
        rcases h with h | h
      · exact Or.inl h
      · obtain ⟨⟨m1, r1, c1⟩, h1, h2⟩ := h
        right
        refine ⟨m1, r1, c1, h1, ?_⟩
        split at h2
        · simp at h2
        · simp only [List.mem_map, Prod.mk.injEq, Prod.exists] at h2
          obtain ⟨m2, r2, c2, h3, rfl, rfl, rfl⟩ := h2
          exact ⟨m2, c2, h3, rfl⟩
      · obtain ⟨⟨m1, r1, c1⟩, h1, h2⟩ := h
        right
        refine ⟨m1, r1, c1, h1, ?_⟩
        split at h2
        · simp at h2
        · simp only [List.mem_map, Prod.mk.injEq, Prod.exists] at h2
          obtain ⟨m2, r2, c2, h3, rfl, rfl, rfl⟩ := h2
          exact ⟨m2, c2, h3, rfl⟩
      · exact Or.inl h
    rcases key with h | ⟨m1, r1, c1, h1, m2, c2, h2, rfl⟩
    · cases h
      exact ⟨rfl, [], by simp, rfl⟩
    · obtain ⟨rfl, hP⟩ := hstep _ _ _ _ h1
      obtain ⟨rfl, l, hl, rfl⟩ := ih _ _ _ _ h2
      refine ⟨by simp, m1 :: l, ?_, by simp⟩
      intro x hx
      rcases List.mem_cons.1 hx with rfl | hx
      · exact hP
      · exact hl x hx

theorem ms_sound (re : Re) : ∀ s m r c, (m, r, c) ∈ ms re s → s = m ++ r ∧ Lang re m := by
  induction re with
  | eps => intro s m r c h; simp [ms] at h; obtain ⟨rfl, rfl, rfl⟩ := h; simp [Lang]
  | ch p =>
    intro s m r c h
    cases s with
    | nil => simp [ms] at h
    | cons x s =>
      simp only [ms] at h
      split at h
      · simp at h; obtain ⟨rfl, rfl, rfl⟩ := h; simpa [Lang]
      · simp at h
  | seq a b iha ihb =>
    intro s m r c h
    simp only [ms, List.mem_flatMap, List.mem_map, Prod.exists, Prod.mk.injEq] at h
    obtain ⟨m1, r1, c1, h1, m2, r2, c2, h2, rfl, rfl, rfl⟩ := h
    obtain ⟨rfl, ha⟩ := iha _ _ _ _ h1
    obtain ⟨rfl, hb⟩ := ihb _ _ _ _ h2
    exact ⟨by simp, m1, m2, ha, hb, rfl⟩
  | alt a b iha ihb =>
    intro s m r c h
    simp only [ms, List.mem_append] at h
    rcases h with h | h
    · exact ⟨(iha _ _ _ _ h).1, Or.inl (iha _ _ _ _ h).2⟩
    · exact ⟨(ihb _ _ _ _ h).1, Or.inr (ihb _ _ _ _ h).2⟩
  | star g a ih => intro s m r c h; exact iter_sound ih _ _ _ _ _ h
  | cap n a ih =>
    intro s m r c h
    simp only [ms, List.mem_map, Prod.exists, Prod.mk.injEq] at h
    obtain ⟨m1, r1, c1, h1, rfl, rfl, rfl⟩ := h
    exact ih _ _ _ _ h1

theorem iter_complete {P : Str → Prop} {g : Bool} {step : Str → List Match}
    (hstep : ∀ m r, P m → ∃ c, (m, r, c) ∈ step (m ++ r)) :
    ∀ fuel (l : List Str) r, (∀ x ∈ l, P x) → l.flatten.length ≤ fuel →
      ∃ c, (l.flatten, r, c) ∈ iter g step fuel (l.flatten ++ r) := by
  intro fuel
  induction fuel with
  | zero =>
    intro l r _ hlen
    have : l.flatten = [] := List.length_eq_zero_iff.1 (Nat.le_zero.1 hlen)
    exact ⟨[], by simp [iter, this]⟩
  | succ n ih =>
    intro l
    induction l with
    | nil => intro r _ _; refine ⟨[], ?_⟩; cases g <;> simp [iter]
    | cons x l ihl =>
      intro r hl hlen
      by_cases hx : x = []
      · subst hx
        obtain ⟨c, hc⟩ := ihl r (fun y hy => hl y (by simp [hy])) (by simpa using hlen)
        exact ⟨c, by simpa using hc⟩
      · obtain ⟨c1, h1⟩ := hstep x (l.flatten ++ r) (hl x (by simp))
        have hx' : 0 < x.length := List.length_pos_iff.2 hx
        obtain ⟨c2, h2⟩ := ih l r (fun y hy => hl y (by simp [hy])) (by
          simp only [List.flatten_cons, List.length_append] at hlen; omega)
        refine ⟨c1 ++ c2, ?_⟩
        have key : ((x :: l).flatten, r, c1 ++ c2) ∈
            ((step ((x :: l).flatten ++ r)).flatMap fun (m, r, c) =>
              if m = [] then [] else
                (iter g step n r).map fun (m', r', c') => (m ++ m', r', c ++ c')) := by
          rw [List.mem_flatMap]
          refine ⟨(x, l.flatten ++ r, c1), by simpa using h1, ?_⟩
          simp only [hx, if_false, List.mem_map, Prod.exists]
          exact ⟨l.flatten, r, c2, h2, by simp⟩
        simp only [iter]
        cases g
        · exact List.mem_cons_of_mem _ key
        · exact List.mem_append_left _ key

theorem ms_complete (re : Re) : ∀ m r, Lang re m → ∃ c, (m, r, c) ∈ ms re (m ++ r) := by
  induction re with
  | eps => rintro m r rfl; exact ⟨[], by simp [ms]⟩
  | ch p => rintro m r ⟨c, hp, rfl⟩; exact ⟨[], by simp [ms, hp]⟩
  | seq a b iha ihb =>
    rintro m r ⟨x, y, hx, hy, rfl⟩
    obtain ⟨c1, h1⟩ := iha x (y ++ r) hx
    obtain ⟨c2, h2⟩ := ihb y r hy
    refine ⟨c1 ++ c2, ?_⟩
    simp only [ms, List.mem_flatMap, List.mem_map, Prod.exists]
    exact ⟨x, y ++ r, c1, by simpa using h1, y, r, c2, h2, by simp⟩
  | alt a b iha ihb =>
    rintro m r (h | h)
    · obtain ⟨c, hc⟩ := iha m r h; exact ⟨c, by simp [ms, hc]⟩
    · obtain ⟨c, hc⟩ := ihb m r h; exact ⟨c, by simp [ms, hc]⟩
  | star g a ih =>
    rintro m r ⟨l, hl, rfl⟩
    exact iter_complete ih _ l r hl (by simp)
  | cap n a ih =>
    rintro m r h
    obtain ⟨c, hc⟩ := ih m r h
    exact ⟨(n, m) :: c, by simp only [ms, List.mem_map]; exact ⟨_, hc, rfl⟩⟩

theorem ms_iff (re : Re) (s m r : Str) :
    (∃ c, (m, r, c) ∈ ms re s) ↔ s = m ++ r ∧ Lang re m := by
  constructor
  · rintro ⟨c, h⟩; exact ms_sound re _ _ _ _ h
  · rintro ⟨rfl, h⟩; exact ms_complete re m r h

theorem isFull_iff (re : Re) (s : Str) : isFull re s = true ↔ Lang re s := by
  unfold isFull full
  rw [Option.isSome_map, List.find?_isSome]
  constructor
  · rintro ⟨⟨m, r, c⟩, h, h'⟩
    simp at h'
    obtain ⟨rfl, hl⟩ := ms_sound re _ _ _ _ h
    subst h'
    simpa using hl
  · intro h
    obtain ⟨c, hc⟩ := ms_complete re s [] h
    exact ⟨_, by simpa using hc, by simp⟩

theorem full_isSome (re : Re) (s : Str) : (full re s).isSome = true ↔ Lang re s := isFull_iff re s

theorem full_eq_none (re : Re) (s : Str) : full re s = none ↔ ¬ Lang re s := by
  rw [← full_isSome]; simp

theorem here_isSome (re : Re) (s : Str) :
    (here re s).isSome = true ↔ ∃ m r, s = m ++ r ∧ Lang re m := by
  unfold here
  constructor
  · intro h
    obtain ⟨⟨m, r, c⟩, hm⟩ := Option.isSome_iff_exists.1 h
    exact ⟨m, r, ms_sound re _ _ _ _ (List.mem_of_head? hm)⟩
  · rintro ⟨m, r, rfl, h⟩
    obtain ⟨c, hc⟩ := ms_complete re m r h
    cases h' : ms re (m ++ r) with
    | nil => simp [h'] at hc
    | cons => rfl

theorem here_sound {re : Re} {s m r : Str} {c : Caps} (h : here re s = some (m, r, c)) :
    s = m ++ r ∧ Lang re m :=
  ms_sound re _ _ _ _ (List.mem_of_head? h)

/-! Languages of the derived forms. -/

theorem lang_seq {a b : Re} {s : Str} :
    Lang (seq a b) s ↔ ∃ x y, Lang a x ∧ Lang b y ∧ s = x ++ y := Iff.rfl

theorem lang_ch {p : Char → Bool} {s : Str} : Lang (ch p) s ↔ ∃ c, p c = true ∧ s = [c] := Iff.rfl

theorem lang_ch_seq {p : Char → Bool} {b : Re} {s : Str} :
    Lang (seq (ch p) b) s ↔ ∃ c t, p c = true ∧ Lang b t ∧ s = c :: t := by
  constructor
  · rintro ⟨x, y, ⟨c, hc, rfl⟩, hy, rfl⟩; exact ⟨c, y, hc, hy, rfl⟩
  · rintro ⟨c, t, hc, ht, rfl⟩; exact ⟨[c], t, ⟨c, hc, rfl⟩, ht, rfl⟩

theorem lang_star_ch {g : Bool} {p : Char → Bool} {s : Str} :
    Lang (star g (ch p)) s ↔ ∀ c ∈ s, p c = true := by
  constructor
  · rintro ⟨l, hl, rfl⟩ c hc
    obtain ⟨x, hx, hcx⟩ := List.mem_flatten.1 hc
    obtain ⟨d, hd, rfl⟩ := hl x hx
    simp at hcx; subst hcx; exact hd
  · intro h
    refine ⟨s.map (fun c => [c]), ?_, ?_⟩
    · intro x hx
      obtain ⟨c, hc, rfl⟩ := List.mem_map.1 hx
      exact ⟨c, h c hc, rfl⟩
    · induction s with
      | nil => rfl
      | cons c s ih => simpa using ih (fun d hd => h d (by simp [hd]))

theorem lang_plus_ch {p : Char → Bool} {s : Str} :
    Lang (plus (ch p)) s ↔ s ≠ [] ∧ ∀ c ∈ s, p c = true := by
  unfold plus
  rw [lang_ch_seq]
  constructor
  · rintro ⟨c, t, hc, ht, rfl⟩
    rw [lang_star_ch] at ht
    simp_all
  · rintro ⟨hne, h⟩
    cases s with
    | nil => exact absurd rfl hne
    | cons c t => exact ⟨c, t, h c (by simp), lang_star_ch.2 (fun d hd => h d (by simp [hd])), rfl⟩

theorem lang_ws {s : Str} : Lang ws s ↔ ∀ c ∈ s, isWS c = true := lang_star_ch

theorem lang_opt {a : Re} {s : Str} : Lang (opt a) s ↔ Lang a s ∨ s = [] := Iff.rfl

theorem lang_lit {s t : Str} : Lang (lit s) t ↔ t = s := by
  induction s generalizing t with
  | nil => exact Iff.rfl
  | cons c s ih =>
    show Lang (seq (ch _) (lit s)) t ↔ _
    rw [lang_ch_seq]
    constructor
    · rintro ⟨c', t', h1, h2, rfl⟩
      rw [ih.1 h2, beq_iff_eq.1 h1]
    · rintro rfl
      exact ⟨c, s, by simp, ih.2 rfl, rfl⟩

theorem lang_litI {s t : Str} : Lang (litI s) t ↔ t.map foldC = s.map foldC := by
  induction s generalizing t with
  | nil => simp [litI, Lang]
  | cons c s ih =>
    show Lang (seq (ch _) (litI s)) t ↔ _
    rw [lang_ch_seq]
    cases t with
    | nil => simp
    | cons d t =>
      simp only [List.map_cons, List.cons.injEq, ← ih, beq_iff_eq]
      constructor
      · rintro ⟨c', t', h1, h2, rfl, rfl⟩; exact ⟨h1, h2⟩
      · rintro ⟨h1, h2⟩; exact ⟨d, t, h1, h2, rfl, rfl⟩

end Art.Re
