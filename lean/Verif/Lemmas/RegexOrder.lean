import Verif.Lemmas.Regex

/-! Priority order of matches: for the patterns used here the first match is the longest one, and
successive search visits every occurrence. -/

namespace Art.Re

theorem tails_cons' {α : Type _} (a : α) (l : List α) : (a :: l).tails = (a :: l) :: l.tails := by
  simp [List.tails]

/-- Matches are listed in strictly decreasing length. -/
def Strict (l : List Match) : Prop := l.Pairwise (fun a b => b.1.length < a.1.length)

theorem Strict.nil : Strict [] := List.Pairwise.nil
theorem Strict.one (m : Match) : Strict [m] := List.pairwise_singleton _ _

theorem strict_of_le_one {l : List Match} (h : l.length ≤ 1) : Strict l := by
  match l, h with
  | [], _ => exact Strict.nil
  | [a], _ => exact Strict.one a

theorem strict_ch (p : Char → Bool) (s : Str) : Strict (ms (ch p) s) := by
  cases s with
  | nil => simp [ms, Strict]
  | cons c s => simp only [ms]; split <;> simp [Strict]

theorem strict_eps (s : Str) : Strict (ms eps s) := by simp [ms, Strict]

theorem strict_cap {n : Nat} {a : Re} {s : Str} (h : Strict (ms a s)) : Strict (ms (cap n a) s) := by
  unfold Strict at *
  simp only [ms]
  rw [List.pairwise_map]
  exact h

theorem strict_flatMap {l : List Match} {f : Match → List Match} (hl : Strict l)
    (hf : ∀ x ∈ l, Strict (f x))
    (hx : ∀ x ∈ l, ∀ y ∈ l, y.1.length < x.1.length → ∀ a ∈ f x, ∀ b ∈ f y, b.1.length < a.1.length) :
    Strict (l.flatMap f) := by
  unfold Strict at *
  induction l with
  | nil => simp
  | cons m l ih =>
    rw [List.flatMap_cons, List.pairwise_append]
    refine ⟨hf m (by simp), ih hl.of_cons (fun x h => hf x (by simp [h])) (fun x hx' y hy => hx x (by simp [hx']) y (by simp [hy])), ?_⟩
    intro a ha b hb
    obtain ⟨y, hy, hb⟩ := List.mem_flatMap.1 hb
    exact hx m (by simp) y (by simp [hy]) ((List.pairwise_cons.1 hl).1 y hy) a ha b hb

theorem strict_seq {a b : Re} {s : Str} (ha : Strict (ms a s)) (hb : ∀ s, Strict (ms b s))
    (hx : ∀ m1 r1 m2 r2 n1 n2 : Str, s = m1 ++ r1 → s = m2 ++ r2 → Lang a m1 → Lang a m2 → m2.length < m1.length →
      Lang b n1 → Lang b n2 → n1 <+: r1 → n2 <+: r2 → m2.length + n2.length < m1.length + n1.length) :
    Strict (ms (seq a b) s) := by
  simp only [ms]
  refine strict_flatMap ha ?_ ?_
  · rintro ⟨m, r, c⟩ _
    unfold Strict
    rw [List.pairwise_map]
    refine (hb r).imp ?_
    intro x y h; simp; omega
  · rintro ⟨m1, r1, c1⟩ h1 ⟨m2, r2, c2⟩ h2 hlt x hx' y hy'
    obtain ⟨⟨n1, r1', d1⟩, g1, rfl⟩ := List.mem_map.1 hx'
    obtain ⟨⟨n2, r2', d2⟩, g2, rfl⟩ := List.mem_map.1 hy'
    obtain ⟨e1, l1⟩ := ms_sound _ _ _ _ _ h1
    obtain ⟨e2, l2⟩ := ms_sound _ _ _ _ _ h2
    obtain ⟨f1, k1⟩ := ms_sound _ _ _ _ _ g1
    obtain ⟨f2, k2⟩ := ms_sound _ _ _ _ _ g2
    simp only [List.length_append]
    exact hx m1 r1 m2 r2 n1 n2 e1 e2 l1 l2 hlt k1 k2 ⟨_, f1.symm⟩ ⟨_, f2.symm⟩

theorem strict_alt {a b : Re} {s : Str} (ha : Strict (ms a s)) (hb : Strict (ms b s))
    (hx : ∀ m1 m2 : Str, m1 <+: s → m2 <+: s → Lang a m1 → Lang b m2 → m2.length < m1.length) :
    Strict (ms (alt a b) s) := by
  unfold Strict at *
  simp only [ms, List.pairwise_append]
  refine ⟨ha, hb, ?_⟩
  rintro ⟨m1, r1, c1⟩ h1 ⟨m2, r2, c2⟩ h2
  obtain ⟨e1, l1⟩ := ms_sound _ _ _ _ _ h1
  obtain ⟨e2, l2⟩ := ms_sound _ _ _ _ _ h2
  exact hx m1 m2 ⟨_, e1.symm⟩ ⟨_, e2.symm⟩ l1 l2

/-- Greedy iteration of a step that has at most one result. -/
theorem strict_iter {step : Str → List Match} (h : ∀ s, (step s).length ≤ 1) :
    ∀ fuel s, Strict (iter true step fuel s) := by
  intro fuel
  induction fuel with
  | zero => intro s; simp [iter, Strict]
  | succ n ih =>
    intro s
    have hs := h s
    simp only [iter, if_true]
    unfold Strict at *
    rw [List.pairwise_append]
    refine ⟨?_, List.pairwise_singleton _ _, ?_⟩
    · match hst : step s, hs with
      | [], _ => simp
      | [(m, r, c)], _ =>
        simp only [List.flatMap_cons, List.flatMap_nil, List.append_nil]
        split
        · simp
        · rw [List.pairwise_map]
          refine (ih r).imp ?_
          intro x y h; simp; omega
    · intro x hx y hy
      simp at hy; subst hy
      obtain ⟨⟨m, r, c⟩, _, hx⟩ := List.mem_flatMap.1 hx
      simp only at hx
      by_cases hm : m = []
      · simp [hm] at hx
      · rw [if_neg hm] at hx
        obtain ⟨z, _, rfl⟩ := List.mem_map.1 hx
        have : 0 < m.length := List.length_pos_iff.2 hm
        simp; omega

theorem strict_star {a : Re} (h : ∀ s, (ms a s).length ≤ 1) (s : Str) : Strict (ms (star true a) s) :=
  strict_iter h _ _

theorem length_ms_ch (p : Char → Bool) (s : Str) : (ms (ch p) s).length ≤ 1 := by
  cases s with
  | nil => simp [ms]
  | cons c s => simp only [ms]; split <;> simp

theorem strict_plus_ch (p : Char → Bool) (s : Str) : Strict (ms (plus (ch p)) s) := by
  unfold plus
  refine strict_seq (strict_ch p s) (strict_star (length_ms_ch p)) ?_
  rintro m1 r1 m2 r2 n1 n2 _ _ ⟨_, _, rfl⟩ ⟨_, _, rfl⟩ h
  simp at h

theorem strict_litI (l s : Str) : Strict (ms (litI l) s) := by
  induction l generalizing s with
  | nil => exact strict_eps s
  | cons c l ih =>
    show Strict (ms (seq (ch _) (litI l)) s)
    refine strict_seq (strict_ch _ s) ih ?_
    rintro m1 r1 m2 r2 n1 n2 _ _ ⟨_, _, rfl⟩ ⟨_, _, rfl⟩ h
    simp at h

/-- A pattern that has one possible matched text at each position has at most one match. -/
theorem length_le_one_of_strict {l : List Match} (hl : Strict l) (h : ∀ x ∈ l, ∀ y ∈ l, x.1.length = y.1.length) :
    l.length ≤ 1 := by
  match l with
  | [] => simp
  | [a] => simp
  | a :: b :: l =>
    have h1 := (List.pairwise_cons.1 hl).1 b (by simp)
    have h2 := h a (by simp) b (by simp)
    omega

/-- The first match of a strict pattern is the longest. -/
theorem here_longest {re : Re} {s : Str} (h : Strict (ms re s)) {m r : Str} {c : Caps}
    (hh : here re s = some (m, r, c)) {x y : Str} (hs : s = x ++ y) (hx : Lang re x) : x.length ≤ m.length := by
  subst hs
  obtain ⟨d, hd⟩ := ms_complete re x y hx
  unfold here at hh
  cases hl : ms re (x ++ y) with
  | nil => rw [hl] at hd; simp at hd
  | cons z l =>
    rw [hl] at hh hd h
    simp at hh
    subst hh
    rcases List.mem_cons.1 hd with e | hd
    · cases e; exact le_refl _
    · exact le_of_lt ((List.pairwise_cons.1 h).1 _ hd)

/-- Sequencing with a pattern that always matches something (possibly empty). -/
theorem here_seq {a b : Re} (hb : ∀ s, (here b s).isSome = true) (s : Str) :
    here (seq a b) s = (here a s).bind fun (m, r, c) => (here b r).map fun (m', r', c') => (m ++ m', r', c ++ c') := by
  unfold here at *
  simp only [ms]
  cases h : ms a s with
  | nil => simp
  | cons x l =>
    obtain ⟨m, r, c⟩ := x
    have hbr := hb r
    simp only [List.flatMap_cons, List.head?_cons, Option.bind_some]
    rw [List.head?_append, List.head?_map]
    cases h' : (ms b r).head? with
    | none => rw [h'] at hbr; simp at hbr
    | some z => simp

theorem here_alt {a b : Re} (s : Str) : here (alt a b) s = (here a s).or (here b s) := by
  unfold here; simp only [ms]; rw [List.head?_append]

theorem here_cap {n : Nat} {a : Re} (s : Str) : here (cap n a) s = (here a s).map fun (m, r, c) => (m, r, (n, m) :: c) := by
  unfold here; simp only [ms]; rw [List.head?_map]

theorem here_opt_isSome (a : Re) (s : Str) : (here (opt a) s).isSome = true := by
  rw [here_isSome]; exact ⟨[], s, rfl, Or.inr rfl⟩

/-- Patterns without groups. -/
def NoCap : Re → Prop
  | eps => True
  | ch _ => True
  | seq a b => NoCap a ∧ NoCap b
  | alt a b => NoCap a ∧ NoCap b
  | star _ a => NoCap a
  | cap _ _ => False

theorem iter_noCap {g : Bool} {step : Str → List Match} (h : ∀ s, ∀ x ∈ step s, x.2.2 = []) :
    ∀ fuel s, ∀ x ∈ iter g step fuel s, x.2.2 = [] := by
  intro fuel
  induction fuel with
  | zero => intro s x hx; simp [iter] at hx; subst hx; rfl
  | succ n ih =>
    intro s x hx
    have : x = ([], s, []) ∨ x ∈ (step s).flatMap fun (m, r, c) =>
      if m = [] then [] else
        (iter g step n r).map fun (m', r', c') => (m ++ m', r', c ++ c') := by
      simp only [iter] at hx
      cases g
      · simpa using hx
      · rw [if_pos rfl, List.mem_append] at hx
        rcases hx with hx | hx
        · exact Or.inr hx
        · simp at hx; exact Or.inl hx
    rcases this with rfl | hx
    · rfl
    · obtain ⟨⟨m, r, c⟩, h1, h2⟩ := List.mem_flatMap.1 hx
      simp only at h2
      split at h2
      · simp at h2
      · obtain ⟨⟨m', r', c'⟩, h3, rfl⟩ := List.mem_map.1 h2
        have e1 := h _ _ h1
        have e2 := ih _ _ h3
        simp only at e1 e2 ⊢
        simp [e1, e2]

theorem ms_noCap {re : Re} (h : NoCap re) (s : Str) : ∀ x ∈ ms re s, x.2.2 = [] := by
  induction re generalizing s with
  | eps => intro x hx; simp [ms] at hx; subst hx; rfl
  | ch p =>
    intro x hx
    cases s with
    | nil => simp [ms] at hx
    | cons c s =>
      simp only [ms] at hx
      split at hx
      · simp at hx; subst hx; rfl
      · simp at hx
  | seq a b iha ihb =>
    intro x hx
    simp only [ms, List.mem_flatMap, List.mem_map] at hx
    obtain ⟨y, hy, z, hz, rfl⟩ := hx
    have e1 := iha h.1 _ y hy
    have e2 := ihb h.2 _ z hz
    simp [e1, e2]
  | alt a b iha ihb =>
    intro x hx
    simp only [ms, List.mem_append] at hx
    rcases hx with hx | hx
    · exact iha h.1 s x hx
    · exact ihb h.2 s x hx
  | star g a ih => exact iter_noCap (ih h) _ _
  | cap n a ih => exact absurd h (by simp [NoCap])

theorem noCap_litI (s : Str) : NoCap (litI s) := by
  induction s with
  | nil => trivial
  | cons c s ih => exact ⟨trivial, ih⟩

theorem here_noCap {re : Re} (h : NoCap re) {s m r : Str} {c : Caps} (hh : here re s = some (m, r, c)) : c = [] :=
  ms_noCap h s _ (List.mem_of_head? hh)

/-! ## Successive search -/

/-- Every found match is a first match at its position. -/
theorem iterFrom_sound {re : Re} : ∀ n s, ∀ x ∈ iterFrom re n s, ∃ pre t, s = pre ++ t ∧ here re t = some x := by
  intro n
  induction n with
  | zero => intro s x hx; simp [iterFrom] at hx
  | succ n ih =>
    intro s x hx
    simp only [iterFrom] at hx
    cases hh : here re s with
    | none =>
      rw [hh] at hx
      cases s with
      | nil => simp at hx
      | cons c s =>
        obtain ⟨pre, t, e, h⟩ := ih s x hx
        exact ⟨c :: pre, t, by simp [e], h⟩
    | some y =>
      obtain ⟨m, r, c⟩ := y
      rw [hh] at hx
      simp only at hx
      split at hx
      · simp at hx
      · rcases List.mem_cons.1 hx with rfl | hx
        · exact ⟨[], s, rfl, hh⟩
        · obtain ⟨pre, t, e, h⟩ := ih r x hx
          obtain ⟨e', _⟩ := here_sound hh
          exact ⟨m ++ pre, t, by rw [e', e]; simp, h⟩

/-- If a match never contains the start of another match (beyond its own first position), successive search
is the same as trying each position independently. -/
theorem iterFrom_eq {re : Re} (hne : ∀ m, Lang re m → m ≠ [])
    (hno : ∀ s m r c, here re s = some (m, r, c) → ∀ u t, s = u ++ t → u ≠ [] → u.length < m.length → here re t = none) :
    ∀ n s, s.length ≤ n → iterFrom re n s = s.tails.filterMap (here re) := by
  intro n
  induction n with
  | zero =>
    intro s h
    have : s = [] := List.length_eq_zero_iff.1 (Nat.le_zero.1 h)
    subst this
    have hnone : here re [] = none := by
      cases hh : here re [] with
      | none => rfl
      | some y =>
        obtain ⟨m, r, c⟩ := y
        obtain ⟨e, hl⟩ := here_sound hh
        have : m = [] := (List.append_eq_nil_iff.1 e.symm).1
        exact absurd this (hne m hl)
    simp [iterFrom, hnone]
  | succ n ih =>
    intro s hs
    simp only [iterFrom]
    cases hh : here re s with
    | none =>
      cases s with
      | nil => simp [hh]
      | cons c s => simp only [tails_cons', List.filterMap_cons, hh]; exact ih s (by simpa using hs)
    | some y =>
      obtain ⟨m, r, c⟩ := y
      obtain ⟨e, hl⟩ := here_sound hh
      have hm : m ≠ [] := hne m hl
      simp only [hm, if_false]
      have hr : r.length ≤ n := by
        have : 0 < m.length := List.length_pos_iff.2 hm
        rw [e, List.length_append] at hs; omega
      rw [ih r hr]
      have key : ∀ (k v : Str), k ++ v = m → k ≠ [] → (v ++ r).tails.filterMap (here re) = r.tails.filterMap (here re) := by
        intro k v
        induction v generalizing k with
        | nil => simp
        | cons a v ihv =>
          intro hk hkn
          rw [List.cons_append, tails_cons', List.filterMap_cons]
          have : here re (a :: (v ++ r)) = none := hno s m r c hh k (a :: (v ++ r)) (by rw [e, ← hk]; simp) hkn (by rw [← hk]; simp)
          rw [this]
          exact ihv (k ++ [a]) (by rw [← hk]; simp) (by simp)
      cases m with
      | nil => exact absurd rfl hm
      | cons a v =>
        rw [e, List.cons_append] at hh ⊢
        rw [tails_cons', List.filterMap_cons, hh]
        simp only
        rw [key [a] v (by simp) (by simp)]

end Art.Re
