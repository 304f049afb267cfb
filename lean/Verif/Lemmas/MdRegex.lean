import Verif.Lemmas.MdLines

/-! Helper lemmas for markdown: the line patterns. -/

namespace Art

/-- Only whitespace. -/
def AllWS (w : Str) : Prop := ∀ c ∈ w, isWS c = true

theorem nameCharI_not_ws {c : Char} (h : nameCharI c = true) : isWS c = false := by
  rw [nameCharI_toNat] at h
  unfold isWS
  simp only [Bool.or_eq_false_iff, Bool.and_eq_false_iff, decide_eq_false_iff_not, beq_eq_false_iff_ne, ne_eq]
  omega

theorem name_no_ws {n : Str} (h : Re.Lang nameRe n) : ∀ c ∈ n, isWS c = false := by
  intro c hc
  rcases name_chars h c hc with h | rfl
  · exact nameCharI_not_ws h
  · decide

theorem name_has_dash {n : Str} (h : Re.Lang nameRe n) : '-' ∈ n := by
  obtain ⟨p, segs, _, hne, _, rfl⟩ := lang_nameRe.1 h
  cases segs with
  | nil => exact absurd rfl hne
  | cons g l => simp

theorem name_last {n : Str} (h : Re.Lang nameRe n) : ∃ c, n.getLast? = some c ∧ nameCharI c = true := by
  obtain ⟨p, segs, _, hne, hs, rfl⟩ := lang_nameRe.1 h
  obtain ⟨init, g, rfl⟩ : ∃ init y, segs = init ++ [y] :=
    ⟨segs.dropLast, segs.getLast hne, (List.dropLast_append_getLast hne).symm⟩
  have hg := hs g (by simp)
  obtain ⟨t, c, rfl⟩ : ∃ t c, g = t ++ [c] := ⟨g.dropLast, g.getLast hg.1, (List.dropLast_append_getLast hg.1).symm⟩
  refine ⟨c, ?_, hg.2 c (by simp)⟩
  have : p ++ dashed (init ++ [t ++ [c]]) = (p ++ dashed init ++ '-' :: t) ++ [c] := by simp
  rw [this, List.getLast?_append]
  simp

theorem Name.lang (n : Name) : Re.Lang nameRe n.raw := by
  obtain ⟨p, segs, h⟩ := n.shape
  exact lang_nameRe.2 ⟨p, segs, tyFold_of_tyOf h.ty, h.ne, h.seg, h.eq⟩

/-! ### the name line -/

theorem lang_litF {fold : Char → Char} {p x : Str} : Re.Lang (litF fold p) x ↔ x.map fold = p.map fold := by
  induction p generalizing x with
  | nil => simp [litF, Re.Lang]
  | cons c s ih =>
    show Re.Lang (.seq (.ch _) (litF fold s)) x ↔ _
    rw [Re.lang_ch_seq]
    cases x with
    | nil => simp
    | cons d t =>
      simp only [List.map_cons, List.cons.injEq, ← ih, beq_iff_eq]
      constructor
      · rintro ⟨c', t', h1, h2, rfl, rfl⟩; exact ⟨h1, h2⟩
      · rintro ⟨h1, h2⟩; exact ⟨d, t, h1, h2, rfl, rfl⟩

theorem noCap_litF (fold : Char → Char) (p : Str) : Re.NoCap (litF fold p) := by
  induction p with
  | nil => trivial
  | cons c s ih => exact ⟨trivial, ih⟩

theorem lang_hash {s : Str} : Re.Lang (.litI c!"#") s ↔ s = c!"#" := lang_litI_plain (by decide)

/-- The pieces of a name line. -/
structure IsNameLine (fold : Char → Char) (pre : Str) (s p w n w' : Str) : Prop where
  eq : s = p ++ '#' :: (w ++ (n ++ w'))
  pre : p.map fold = pre.map fold
  ws : AllWS w
  name : Re.Lang nameRe n
  ws' : AllWS w'

theorem lang_nameLine {fold : Char → Char} {pre s : Str} :
    Re.Lang (nameLineRe fold pre) s ↔ ∃ p w n w', IsNameLine fold pre s p w n w' := by
  unfold nameLineRe
  constructor
  · rintro ⟨p, _, hp, ⟨h, _, hh, ⟨w, _, hw, ⟨n, w', hn, hw', rfl⟩, rfl⟩, rfl⟩, rfl⟩
    rw [lang_hash] at hh
    subst hh
    exact ⟨p, w, n, w', rfl, lang_litF.1 hp, Re.lang_ws.1 hw, hn, Re.lang_ws.1 hw'⟩
  · rintro ⟨p, w, n, w', h⟩
    exact ⟨p, _, lang_litF.2 h.pre, ⟨c!"#", _, lang_hash.2 rfl, ⟨w, _, Re.lang_ws.2 h.ws, ⟨n, w', h.name, Re.lang_ws.2 h.ws', rfl⟩, rfl⟩,
      rfl⟩, h.eq⟩

theorem strip_unique {w n w' v m v' : Str} (hw : AllWS w) (hn : Re.Lang nameRe n) (hw' : AllWS w') (hv : AllWS v)
    (hm : Re.Lang nameRe m) (hv' : AllWS v') (e : w ++ (n ++ w') = v ++ (m ++ v')) : n = m := by
  have key : ∀ {w n w' : Str}, AllWS w → Re.Lang nameRe n → AllWS w' →
      ((w ++ (n ++ w')).dropWhile isWS).takeWhile (fun c => !isWS c) = n := by
    intro w n w' hw hn hw'
    have h1 : (w ++ (n ++ w')).dropWhile isWS = n ++ w' := by
      rw [List.dropWhile_append_of_pos hw]
      have := name_ne_nil hn
      cases n with
      | nil => exact absurd rfl this
      | cons c n =>
        rw [List.cons_append, List.dropWhile_cons_of_neg (by rw [name_no_ws hn c (by simp)]; simp)]
    rw [h1, List.takeWhile_append_of_pos (fun c hc => by rw [name_no_ws hn c hc]; rfl)]
    cases w' with
    | nil => simp
    | cons c w' => rw [List.takeWhile_cons_of_neg (by rw [hw' c (by simp)]; simp)]; simp
  rw [← key hw hn hw', e, key hv hm hv']

theorem IsNameLine.unique {fold : Char → Char} {pre s p w n w' p2 w2 n2 w2' : Str} (h : IsNameLine fold pre s p w n w')
    (h2 : IsNameLine fold pre s p2 w2 n2 w2') : n = n2 := by
  have hl : p.length = p2.length := by
    have a := congrArg List.length h.pre
    have b := congrArg List.length h2.pre
    simp only [List.length_map] at a b
    omega
  have e := h.eq.symm.trans h2.eq
  obtain ⟨_, e⟩ := List.append_inj e hl
  exact strip_unique h.ws h.name h.ws' h2.ws h2.name h2.ws' (List.cons.inj e).2

theorem ms_nameLine {fold : Char → Char} {pre s m r : Str} {c : Caps} (h : (m, r, c) ∈ Re.ms (nameLineRe fold pre) s) :
    ∃ p w n w', IsNameLine fold pre m p w n w' ∧ c = [(1, n)] := by
  unfold nameLineRe at h
  simp only [Re.ms, List.mem_flatMap, List.mem_map, Prod.exists, Prod.mk.injEq] at h
  obtain ⟨p, r1, c1, h1, _, _, _, ⟨x, r2, c2, h2, _, _, _, ⟨w, r3, c3, h3, _, _, _, ⟨_, r4, c4, ⟨n, _, c5, h4, rfl, rfl, rfl⟩, w', r6, c6, h6, rfl, rfl, rfl⟩,
    rfl, rfl, rfl⟩, rfl, rfl, rfl⟩, rfl, rfl, rfl⟩ := h
  have e1 := Re.ms_noCap (noCap_litF fold pre) _ _ h1
  have e2 := Re.ms_noCap (Re.noCap_litI _) _ _ h2
  have e5 := Re.ms_noCap noCap_nameRe _ _ h4
  have e3 := Re.ms_noCap (re := .ws) (by trivial) _ _ h3
  have e6 := Re.ms_noCap (re := .ws) (by trivial) _ _ h6
  simp only at e1 e2 e3 e5 e6
  subst e1 e2 e3 e5 e6
  have l2 := (Re.ms_sound _ _ _ _ _ h2).2
  rw [lang_hash] at l2
  subst l2
  exact ⟨p, w, n, w', ⟨rfl, lang_litF.1 (Re.ms_sound _ _ _ _ _ h1).2, Re.lang_ws.1 (Re.ms_sound _ _ _ _ _ h3).2,
    (Re.ms_sound _ _ _ _ _ h4).2, Re.lang_ws.1 (Re.ms_sound _ _ _ _ _ h6).2⟩, rfl⟩

/-- The name captured from a name line. -/
theorem full_nameLine {fold : Char → Char} {pre s p w n w' : Str} (h : IsNameLine fold pre s p w n w') :
    (nameLineRe fold pre).full s = some [(1, n)] := by
  have hs : ((nameLineRe fold pre).full s).isSome = true := (Re.full_isSome _ _).2 (lang_nameLine.2 ⟨p, w, n, w', h⟩)
  obtain ⟨c, hc⟩ := Option.isSome_iff_exists.1 hs
  rw [hc]
  unfold Re.full at hc
  rw [Option.map_eq_some_iff] at hc
  obtain ⟨⟨m, r, c'⟩, hf, rfl⟩ := hc
  have hr : r = [] := by simpa using List.find?_some hf
  subst hr
  have hm := List.mem_of_find?_eq_some hf
  have hms := (Re.ms_sound _ _ _ _ _ hm).1
  rw [List.append_nil] at hms
  subst hms
  obtain ⟨p2, w2, n2, w2', h2, e⟩ := ms_nameLine hm
  simp only [e, h.unique h2]

/-! ### what a name line contains -/

theorem IsNameLine.hash {fold : Char → Char} {pre s p w n w' : Str} (h : IsNameLine fold pre s p w n w') : '#' ∈ s := by
  rw [h.eq]; simp

/-- After trimming, the last character of a name line belongs to a name. -/
theorem IsNameLine.last {fold : Char → Char} {pre s p w n w' : Str} (h : IsNameLine fold pre s p w n w') :
    ∃ c, (trimEnd s).getLast? = some c ∧ nameCharI c = true := by
  obtain ⟨c, hc, hcn⟩ := name_last h.name
  have hn : trimEnd n = n := trimEnd_eq_self ⟨c, hc, nameCharI_not_ws hcn⟩
  have hne : trimEnd n ≠ [] := by rw [hn]; exact name_ne_nil h.name
  have e : s = (p ++ '#' :: w ++ n) ++ w' := by rw [h.eq]; simp
  rw [e, trimEnd_append_ws _ _ h.ws', trimEnd_append _ hne, hn]
  exact ⟨c, by rw [List.getLast?_append, hc]; rfl, hcn⟩

/-- A line whose part after the last blank has no dash is not a name line. -/
theorem not_nameLine_of_tail {fold : Char → Char} {pre a : Str} {c : Char} {b : Str} (hc : isWS c = true) (hb : ∀ x ∈ b, isWS x = false ∧ x ≠ '-')
    (hne : b ≠ []) : ¬ ∃ p w n w', IsNameLine fold pre (a ++ c :: b) p w n w' := by
  rintro ⟨p, w, n, w', h⟩
  -- no trailing whitespace
  have hw' : w' = [] := by
    by_contra hne'
    obtain ⟨t, d, rfl⟩ : ∃ t d, w' = t ++ [d] := ⟨w'.dropLast, w'.getLast hne', (List.dropLast_append_getLast hne').symm⟩
    obtain ⟨u, x, rfl⟩ : ∃ t d, b = t ++ [d] := ⟨b.dropLast, b.getLast hne, (List.dropLast_append_getLast hne).symm⟩
    have e := congrArg List.getLast? h.eq
    have e1 : (a ++ c :: (u ++ [x])).getLast? = some x := by
      have : a ++ c :: (u ++ [x]) = (a ++ c :: u) ++ [x] := by simp
      rw [this, List.getLast?_append]; rfl
    have e2 : (p ++ '#' :: (w ++ (n ++ (t ++ [d])))).getLast? = some d := by
      have : p ++ '#' :: (w ++ (n ++ (t ++ [d]))) = (p ++ '#' :: (w ++ (n ++ t))) ++ [d] := by simp
      rw [this, List.getLast?_append]; rfl
    rw [e1, e2] at e
    injection e with e
    subst e
    have h1 := h.ws' x (by simp)
    rw [(hb x (by simp)).1] at h1
    cases h1
  subst hw'
  have e : (a ++ [c]) ++ b = (p ++ '#' :: w) ++ n := by have := h.eq; simpa using this
  by_cases hle : b.length < n.length
  · -- the blank would be part of the name
    have hl := congrArg List.length e
    simp only [List.length_append] at hl
    obtain ⟨v, e1, e2⟩ := split_le e (by simp only [List.length_append]; omega)
    have hv : v ≠ [] := by rintro rfl; rw [e2] at hle; simp at hle
    obtain ⟨u, d, rfl⟩ : ∃ t d, v = t ++ [d] := ⟨v.dropLast, v.getLast hv, (List.dropLast_append_getLast hv).symm⟩
    have hd : c = d := by
      have := congrArg List.getLast? e1
      rw [← List.append_assoc, List.getLast?_append, List.getLast?_append] at this
      simpa using this
    subst hd
    have := name_no_ws h.name c (by rw [e2]; simp)
    rw [hc] at this
    cases this
  · have hl := congrArg List.length e
    simp only [List.length_append] at hl
    obtain ⟨v, e1, e2⟩ := split_le e.symm (by simp only [List.length_append]; omega)
    exact (hb '-' (by rw [e2]; exact List.mem_append_right _ (name_has_dash h.name))).2 rfl

/-! ### the other patterns -/

theorem attrsEnd_iff {s : Str} : attrsEndRe.isFull s = true ↔ ∃ k w, AllWS w ∧ s = List.replicate (k + 3) '#' ++ w := by
  rw [Re.isFull_iff]
  unfold attrsEndRe
  constructor
  · rintro ⟨_, _, h1, ⟨b, w, h2, h3, rfl⟩, rfl⟩
    rw [Re.lang_lit] at h1
    rw [Re.lang_plus_ch] at h2
    rw [Re.lang_ws] at h3
    subst h1
    have hb : b = List.replicate b.length '#' := List.eq_replicate_iff.2 ⟨rfl, fun c hc => by simpa using h2.2 c hc⟩
    obtain ⟨k, hk⟩ : ∃ k, b.length = k + 1 := ⟨b.length - 1, by have := List.length_pos_iff.2 h2.1; omega⟩
    refine ⟨k, w, h3, ?_⟩
    rw [hb, hk]
    rfl
  · rintro ⟨k, w, hw, rfl⟩
    refine ⟨c!"##", List.replicate (k + 1) '#' ++ w, Re.lang_lit.2 rfl, ⟨_, w, Re.lang_plus_ch.2 ⟨by simp, ?_⟩, Re.lang_ws.2 hw, rfl⟩, rfl⟩
    intro c hc
    simp [List.eq_of_mem_replicate hc]

theorem codeEnd_iff {s : Str} : codeEndRe.isFull s = true ↔ ∃ k w, AllWS w ∧ s = List.replicate (k + 3) '`' ++ w := by
  rw [Re.isFull_iff]
  unfold codeEndRe
  constructor
  · rintro ⟨_, _, h1, ⟨b, w, h2, h3, rfl⟩, rfl⟩
    rw [Re.lang_lit] at h1
    rw [Re.lang_plus_ch] at h2
    rw [Re.lang_ws] at h3
    subst h1
    have hb : b = List.replicate b.length '`' := List.eq_replicate_iff.2 ⟨rfl, fun c hc => by simpa using h2.2 c hc⟩
    obtain ⟨k, hk⟩ : ∃ k, b.length = k + 1 := ⟨b.length - 1, by have := List.length_pos_iff.2 h2.1; omega⟩
    refine ⟨k, w, h3, ?_⟩
    rw [hb, hk]
    rfl
  · rintro ⟨k, w, hw, rfl⟩
    refine ⟨c!"``", List.replicate (k + 1) '`' ++ w, Re.lang_lit.2 rfl, ⟨_, w, Re.lang_plus_ch.2 ⟨by simp, ?_⟩, Re.lang_ws.2 hw, rfl⟩, rfl⟩
    intro c hc
    simp [List.eq_of_mem_replicate hc]

theorem attrsCode_head {s : Str} (h : attrsCodeRe.isFull s = true) : s.head? = some '`' := by
  rw [Re.isFull_iff] at h
  obtain ⟨x, y, h1, _, rfl⟩ := h
  rw [Re.lang_lit] at h1
  subst h1
  rfl

theorem attrsCode_open (p : Str) (h : '\n' ∉ p) : attrsCodeRe.isFull (c!"```" ++ p ++ c!" art") = true := by
  rw [Re.isFull_iff]
  refine ⟨c!"```", p ++ c!" art", Re.lang_lit.2 rfl, ⟨p ++ c!" ", c!"art", Or.inr ⟨p, c!" ", ?_, ?_, rfl⟩, ⟨c!"ar", c!"t", ?_, ⟨c!"t", [], ?_, ?_, rfl⟩, rfl⟩, by simp⟩, by simp⟩
  · rw [Re.lang_star_ch]
    intro c hc
    simp only [bne_iff_ne, ne_eq]
    rintro rfl
    exact h hc
  · exact Re.lang_plus_ch.2 ⟨by simp, by decide⟩
  · exact Re.lang_lit.2 rfl
  · exact Re.lang_plus_ch.2 ⟨by simp, by decide⟩
  · exact Re.lang_ws.2 (by simp)

theorem attrsEnd_head {s : Str} (h : attrsEndRe.isFull s = true) : s.head? = some '#' := by
  obtain ⟨k, w, _, rfl⟩ := attrsEnd_iff.1 h
  rfl

theorem codeEnd_head {s : Str} (h : codeEndRe.isFull s = true) : s.head? = some '`' := by
  obtain ⟨k, w, _, rfl⟩ := codeEnd_iff.1 h
  rfl

end Art
