import Verif.Spec.Export
import Verif.Lemmas.RegexOrder

/-! Helper lemmas: the pattern of graphs in a text. -/

namespace Art
open Spec Spec.Export Re

/-- Matches are listed in strictly increasing length. -/
def Incr (l : List Match) : Prop := l.Pairwise (fun a b => a.1.length < b.1.length)

theorem incr_iter {step : Str → List Match} (h : ∀ s, (step s).length ≤ 1) : ∀ fuel s, Incr (iter false step fuel s) := by
  intro fuel
  induction fuel with
  | zero => intro s; simp [iter, Incr]
  | succ n ih =>
    intro s
    have hs := h s
    simp only [iter, Bool.false_eq_true, if_false]
    unfold Incr at *
    rw [List.pairwise_cons]
    refine ⟨?_, ?_⟩
    · intro x hx
      obtain ⟨⟨m, r, c⟩, _, hx⟩ := List.mem_flatMap.1 hx
      simp only at hx
      by_cases hm : m = []
      · simp [hm] at hx
      · rw [if_neg hm] at hx
        obtain ⟨z, _, rfl⟩ := List.mem_map.1 hx
        have : 0 < m.length := List.length_pos_iff.2 hm
        simp; omega
    · match hst : step s, hs with
      | [], _ => simp
      | [(m, r, c)], _ =>
        simp only [List.flatMap_cons, List.flatMap_nil, List.append_nil]
        split
        · simp
        · rw [List.pairwise_map]
          refine (ih r).imp ?_
          intro x y h; simp; omega

/-- How two matches of two parts are put together. -/
def glue (x y : Match) : Match := (x.1 ++ y.1, y.2.1, x.2.2 ++ y.2.2)

theorem ms_seq (a b : Re) (s : Str) : ms (seq a b) s = (ms a s).flatMap fun x => (ms b x.2.1).map (glue x) := rfl

theorem pairwise_seq {R : Match → Match → Prop} {a b : Re} {s : Str}
    (h1 : (ms a s).Pairwise (fun x y => ∀ x' ∈ ms b x.2.1, ∀ y' ∈ ms b y.2.1, R (glue x x') (glue y y')))
    (h2 : ∀ x ∈ ms a s, (ms b x.2.1).Pairwise (fun x' y' => R (glue x x') (glue x y'))) : (ms (seq a b) s).Pairwise R := by
  rw [ms_seq, List.pairwise_flatMap]
  refine ⟨fun x hx => ?_, h1.imp ?_⟩
  · rw [List.pairwise_map]; exact h2 x hx
  · rintro x y h _ hx _ hy
    obtain ⟨x', hx', rfl⟩ := List.mem_map.1 hx
    obtain ⟨y', hy', rfl⟩ := List.mem_map.1 hy
    exact h x' hx' y' hy'

theorem pairwise_of_le_one {α : Type _} {R : α → α → Prop} {l : List α} (h : l.length ≤ 1) : l.Pairwise R := by
  match l, h with
  | [], _ => exact List.Pairwise.nil
  | [a], _ => exact List.pairwise_singleton _ _

theorem noCap_lit (s : Str) : NoCap (lit s) := by
  induction s with
  | nil => trivial
  | cons c s ih => exact ⟨trivial, ih⟩

theorem one_lit (l s : Str) : (ms (lit l) s).length ≤ 1 := by
  induction l generalizing s with
  | nil => simp [lit, ms]
  | cons c l ih =>
    have : lit (c :: l) = seq (ch fun x => x == c) (lit l) := rfl
    rw [this, ms_seq]
    match hs : ms (ch fun x => x == c) s, length_ms_ch (fun x => x == c) s with
    | [], _ => simp
    | [x], _ => simpa using ih x.2.1

/-- The length of a captured group. -/
def capLen (n : Nat) (x : Match) : Nat := ((Caps.get x.2.2 n).getD []).length

/-- The order in which graphs are tried. -/
def DotOrder (x y : Match) : Prop := capLen 1 y < capLen 1 x ∨ (capLen 1 y = capLen 1 x ∧ capLen 2 x < capLen 2 y)

/-- The opening of a graph. -/
def dotOpen : Re := .seq (.litI c!"```dot") .ws
/-- The body of a graph. -/
def dotBody : Re := .seq (.seq anyCh (.star false anyCh)) (.lit c!"\n")
/-- What follows the opening. -/
def dotRest : Re := .seq (.lit c!"\n") (.seq (.cap 2 dotBody) (.cap 3 (.lit c!"```")))

theorem dotRe_eq : dotRe = .seq (.cap 1 dotOpen) dotRest := rfl

theorem noCap_dotOpen : NoCap dotOpen := ⟨noCap_litI _, trivial⟩
theorem noCap_dotBody : NoCap dotBody := ⟨⟨trivial, trivial⟩, noCap_lit _⟩

theorem ms_cap (n : Nat) (a : Re) (s : Str) : ms (cap n a) s = (ms a s).map fun x => (x.1, x.2.1, (n, x.1) :: x.2.2) := rfl

theorem lang_dotOpen {x : Str} : Lang dotOpen x ↔ ∃ d w, x = c!"```" ++ d ++ w ∧ upper d = c!"DOT" ∧ ∀ c ∈ w, isWS c = true := by
  have fd : ∀ c, foldC c = 'd' ↔ upperC c = 'D' := by
    intro c; rw [char_eq, char_eq, foldC_toNat, upperC_toNat]; simp; split_ifs <;> omega
  have fo : ∀ c, foldC c = 'o' ↔ upperC c = 'O' := by
    intro c; rw [char_eq, char_eq, foldC_toNat, upperC_toNat]; simp; split_ifs <;> omega
  have ft : ∀ c, foldC c = 't' ↔ upperC c = 'T' := by
    intro c; rw [char_eq, char_eq, foldC_toNat, upperC_toNat]; simp; split_ifs <;> omega
  have fq : ∀ c, foldC c = '`' ↔ c = '`' := by
    intro c; rw [char_eq, char_eq, foldC_toNat]; simp; split_ifs <;> omega
  unfold dotOpen
  constructor
  · rintro ⟨a, w, ha, hw, rfl⟩
    rw [lang_litI] at ha
    rw [lang_ws] at hw
    have hm : (c!"```dot").map foldC = c!"```dot" := by decide
    rw [hm] at ha
    simp only [List.map_eq_cons_iff, List.map_eq_nil_iff, fq, fd, fo, ft] at ha
    obtain ⟨a1, _, rfl, rfl, a2, _, rfl, rfl, a3, _, rfl, rfl, a4, _, rfl, h4, a5, _, rfl, h5, a6, _, rfl, h6, rfl⟩ := ha
    exact ⟨[a4, a5, a6], w, by simp, by simp [h4, h5, h6, upper], hw⟩
  · rintro ⟨d, w, rfl, hd, hw⟩
    unfold upper at hd
    simp only [List.map_eq_cons_iff, List.map_eq_nil_iff] at hd
    obtain ⟨a4, _, rfl, h4, a5, _, rfl, h5, a6, _, rfl, h6, rfl⟩ := hd
    refine ⟨['`', '`', '`', a4, a5, a6], w, ?_, lang_ws.2 hw, by simp⟩
    rw [lang_litI]
    have hm : (c!"```dot").map foldC = c!"```dot" := by decide
    rw [hm]
    simp only [List.map_cons, List.map_nil, List.cons.injEq, fd, fo, ft, h4, h5, h6, and_true]
    decide

theorem strict_dotOpen (s : Str) : Strict (ms dotOpen s) := by
  refine strict_seq (strict_litI _ _) (fun s => strict_star (length_ms_ch _) s) ?_
  intro m1 r1 m2 r2 n1 n2 _ _ l1 l2 hlt
  rw [lang_litI] at l1 l2
  have := congrArg List.length l1
  have := congrArg List.length l2
  simp at *
  omega

theorem incr_dotBody (s : Str) : Incr (ms dotBody s) := by
  have h0 : Incr (ms (.seq anyCh (.star false anyCh)) s) := by
    refine pairwise_seq ?_ ?_
    · exact pairwise_of_le_one (length_ms_ch (fun _ => true) s)
    · intro x _
      refine (incr_iter (length_ms_ch _) _ _).imp ?_
      intro a b h
      simp [glue]; exact h
  refine pairwise_seq (h0.imp ?_) ?_
  · rintro ⟨m1, r1, c1⟩ ⟨m2, r2, c2⟩ h ⟨m1', r1', c1'⟩ h1 ⟨m2', r2', c2'⟩ h2
    obtain ⟨_, l1⟩ := ms_sound _ _ _ _ _ h1
    obtain ⟨_, l2⟩ := ms_sound _ _ _ _ _ h2
    rw [lang_lit] at l1 l2
    subst l1 l2
    simp [glue]; exact h
  · intro x _
    exact pairwise_of_le_one (one_lit c!"\n" x.2.1)

theorem dotOrder (s : Str) : (ms dotRe s).Pairwise DotOrder := by
  rw [dotRe_eq]
  refine pairwise_seq ?_ ?_
  · rw [ms_cap, List.pairwise_map]
    refine (strict_dotOpen s).imp ?_
    intro x y h x' _ y' _
    left
    simpa [capLen, glue, Caps.get] using h
  · intro x hx
    have e1 : ∀ y, capLen 1 (glue x y) = capLen 1 x := by
      rw [ms_cap] at hx
      obtain ⟨z, _, rfl⟩ := List.mem_map.1 hx
      intro y; simp [capLen, glue, Caps.get]
    have e2 : ∀ y, capLen 2 (glue x y) = capLen 2 y := by
      rw [ms_cap] at hx
      obtain ⟨z, hz, rfl⟩ := List.mem_map.1 hx
      have := ms_noCap noCap_dotOpen _ _ hz
      intro y; simp [capLen, glue, Caps.get, this]
    refine List.Pairwise.imp (R := fun a b => capLen 2 a < capLen 2 b) ?_ ?_
    · intro a b h; right; rw [e1, e1, e2, e2]; exact ⟨rfl, h⟩
    · refine pairwise_seq ?_ ?_
      · exact pairwise_of_le_one (one_lit c!"\n" x.2.1)
      · intro u hu
        have hc := ms_noCap (noCap_lit _) _ _ hu
        have e3 : ∀ y, capLen 2 (glue u y) = capLen 2 y := by intro y; simp [capLen, glue, hc]
        simp only [e3]
        refine pairwise_seq ?_ ?_
        · rw [ms_cap, List.pairwise_map]
          refine (incr_dotBody _).imp ?_
          intro x y h x' _ y' _
          simpa [capLen, glue, Caps.get] using h
        · intro v _
          exact pairwise_of_le_one (by rw [ms_cap, List.length_map]; exact one_lit c!"```" v.2.1)

/-- A match of the pattern. -/
def dotMatch (head body rest : Str) : Match := (head ++ (c!"\n" ++ (body ++ c!"```")), rest, [(1, head), (2, body), (3, c!"```")])

theorem lang_dotBody {x : Str} : Lang dotBody x ↔ ∃ b, b ≠ [] ∧ x = b ++ c!"\n" := by
  unfold dotBody
  constructor
  · rintro ⟨a, n, ⟨c, r, ⟨c', _, rfl⟩, _, rfl⟩, hn, rfl⟩
    rw [lang_lit] at hn
    subst hn
    exact ⟨_, by simp, rfl⟩
  · rintro ⟨b, hb, rfl⟩
    cases b with
    | nil => exact absurd rfl hb
    | cons c b =>
      exact ⟨c :: b, _, ⟨[c], b, ⟨c, rfl, rfl⟩, lang_star_ch.2 (by simp), rfl⟩, lang_lit.2 rfl, rfl⟩

theorem mem_dotRe {s : Str} {x : Match} : x ∈ ms dotRe s ↔ ∃ head body rest, x = dotMatch head body rest ∧
    s = head ++ c!"\n" ++ body ++ c!"```" ++ rest ∧ Lang dotOpen head ∧ Lang dotBody body := by
  rw [dotRe_eq]
  constructor
  · intro hx
    rw [ms_seq] at hx
    obtain ⟨a, ha, hx⟩ := List.mem_flatMap.1 hx
    obtain ⟨b, hb, rfl⟩ := List.mem_map.1 hx
    unfold dotRest at hb
    rw [ms_seq] at hb
    obtain ⟨u, hu, hb⟩ := List.mem_flatMap.1 hb
    obtain ⟨v, hv, rfl⟩ := List.mem_map.1 hb
    rw [ms_seq] at hv
    obtain ⟨w, hw, hv⟩ := List.mem_flatMap.1 hv
    obtain ⟨z, hz, rfl⟩ := List.mem_map.1 hv
    rw [ms_cap] at ha hw hz
    obtain ⟨⟨m1, r1, c1⟩, ha', rfl⟩ := List.mem_map.1 ha
    clear ha
    obtain ⟨⟨m3, r3, c3⟩, hw', rfl⟩ := List.mem_map.1 hw
    obtain ⟨⟨m4, r4, c4⟩, hz', rfl⟩ := List.mem_map.1 hz
    obtain ⟨m2, r2, c2⟩ := u
    have n1 := ms_noCap noCap_dotOpen _ _ ha'
    have n2 := ms_noCap (noCap_lit _) _ _ hu
    have n3 := ms_noCap noCap_dotBody _ _ hw'
    have n4 := ms_noCap (noCap_lit _) _ _ hz'
    obtain ⟨e1, l1⟩ := ms_sound _ _ _ _ _ ha'
    obtain ⟨e2, l2⟩ := ms_sound _ _ _ _ _ hu
    obtain ⟨e3, l3⟩ := ms_sound _ _ _ _ _ hw'
    obtain ⟨e4, l4⟩ := ms_sound _ _ _ _ _ hz'
    rw [lang_lit] at l2 l4
    simp only at n1 n2 n3 n4 e1 e2 e3 e4
    subst n1 n2 n3 n4 l2 l4
    refine ⟨m1, m3, r4, rfl, ?_, l1, l3⟩
    rw [e1, e2, e3, e4]
    simp
  · rintro ⟨head, body, rest, rfl, rfl, hh, hb⟩
    have get : ∀ {re : Re} {m r : Str}, NoCap re → Lang re m → (m, r, []) ∈ ms re (m ++ r) := by
      intro re m r hc hl
      obtain ⟨c, h⟩ := ms_complete re m r hl
      have := ms_noCap hc _ _ h
      simp only at this
      subst this
      exact h
    rw [ms_seq]
    refine List.mem_flatMap.2 ⟨(head, c!"\n" ++ (body ++ (c!"```" ++ rest)), [(1, head)]), ?_, List.mem_map.2 ⟨(c!"\n" ++ (body ++ c!"```"), rest, [(2, body), (3, c!"```")]), ?_, rfl⟩⟩
    · rw [ms_cap]
      refine List.mem_map.2 ⟨(head, _, []), ?_, rfl⟩
      simpa using get (r := c!"\n" ++ (body ++ (c!"```" ++ rest))) noCap_dotOpen hh
    · unfold dotRest
      rw [ms_seq]
      refine List.mem_flatMap.2 ⟨(c!"\n", body ++ (c!"```" ++ rest), []), get (noCap_lit _) (lang_lit.2 rfl), List.mem_map.2 ⟨(body ++ c!"```", rest, [(2, body), (3, c!"```")]), ?_, rfl⟩⟩
      rw [ms_seq]
      refine List.mem_flatMap.2 ⟨(body, c!"```" ++ rest, [(2, body)]), ?_, List.mem_map.2 ⟨(c!"```", rest, [(3, c!"```")]), ?_, rfl⟩⟩
      · rw [ms_cap]
        exact List.mem_map.2 ⟨(body, _, []), get noCap_dotBody hb, rfl⟩
      · rw [ms_cap]
        exact List.mem_map.2 ⟨(c!"```", _, []), get (noCap_lit _) (lang_lit.2 rfl), rfl⟩

theorem atEol_iff {r : Str} : atEol r = true ↔ r = [] ∨ ∃ t, r = '\n' :: t := by
  cases r with
  | nil => simp [atEol]
  | cons c r => simp [atEol]

theorem mayGraph_iff {s head body rest : Str} : MayGraph s head body rest ↔ dotMatch head body rest ∈ ms dotRe s ∧ atEol rest = true := by
  rw [mem_dotRe, atEol_iff]
  unfold MayGraph
  rw [← lang_dotOpen, ← lang_dotBody]
  constructor
  · rintro ⟨h1, h2, h3, h4⟩
    exact ⟨⟨head, body, rest, rfl, h1, h2, h3⟩, h4⟩
  · rintro ⟨⟨h', b', r', e, h1, h2, h3⟩, h4⟩
    simp only [dotMatch, Prod.mk.injEq, List.cons.injEq] at e
    obtain ⟨_, rfl, ⟨_, rfl⟩, ⟨_, rfl⟩, _⟩ := e
    exact ⟨h1, h2, h3, h4⟩

theorem dotHere_none {s : Str} : dotHere s = none ↔ ∀ h b r, ¬ MayGraph s h b r := by
  unfold dotHere
  rw [List.find?_eq_none]
  constructor
  · intro h a b r hm
    obtain ⟨h1, h2⟩ := mayGraph_iff.1 hm
    exact h _ h1 h2
  · intro h x hx he
    obtain ⟨a, b, r, rfl, _⟩ := mem_dotRe.1 hx
    exact h a b r (mayGraph_iff.2 ⟨hx, he⟩)

theorem dotHere_some {s : Str} {x : Match} (h : dotHere s = some x) : ∃ head body rest, x = dotMatch head body rest ∧ Graph s head body rest := by
  unfold dotHere at h
  obtain ⟨he, l1, l2, e, hno⟩ := List.find?_eq_some_iff_append.1 h
  have hx : x ∈ ms dotRe s := by rw [e]; simp
  obtain ⟨head, body, rest, rfl, _⟩ := mem_dotRe.1 hx
  refine ⟨head, body, rest, rfl, mayGraph_iff.2 ⟨hx, he⟩, fun a b r hm => ?_⟩
  obtain ⟨h1, h2⟩ := mayGraph_iff.1 hm
  have ord := dotOrder s
  rw [e] at h1 ord
  rcases List.mem_append.1 h1 with h1 | h1
  · have := hno _ h1
    simp only [dotMatch, h2, Bool.not_true, Bool.false_eq_true] at this
  · rcases List.mem_cons.1 h1 with h1 | h1
    · simp only [dotMatch, Prod.mk.injEq, List.cons.injEq] at h1
      obtain ⟨_, rfl, ⟨_, rfl⟩, ⟨_, rfl⟩, _⟩ := h1
      right; simp
    · have := (List.pairwise_cons.1 (List.pairwise_append.1 ord).2.1).1 _ h1
      simp [DotOrder, capLen, dotMatch, Caps.get] at this
      omega

theorem graph_unique {s h b r h' b' r' : Str} (h1 : Graph s h b r) (h2 : Graph s h' b' r') : h = h' ∧ b = b' ∧ r = r' := by
  have l1 := h1.2 _ _ _ h2.1
  have l2 := h2.2 _ _ _ h1.1
  have e := h1.1.1.symm.trans h2.1.1
  simp only [List.append_assoc] at e
  obtain ⟨e1, e⟩ := List.append_inj e (by omega)
  obtain ⟨_, e⟩ := List.append_inj e rfl
  obtain ⟨e2, e⟩ := List.append_inj e (by omega)
  obtain ⟨_, e⟩ := List.append_inj e rfl
  exact ⟨e1, e2, e⟩

theorem dotHere_graph {s head body rest : Str} (h : Graph s head body rest) : dotHere s = some (dotMatch head body rest) := by
  cases hd : dotHere s with
  | none => exact absurd h.1 (dotHere_none.1 hd _ _ _)
  | some x =>
    obtain ⟨a, b, r, rfl, hg⟩ := dotHere_some hd
    obtain ⟨rfl, rfl, rfl⟩ := graph_unique h hg
    rfl

end Art
