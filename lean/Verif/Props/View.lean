import Verif.Lemmas.View
import Verif.Props.Name
import Mathlib.Data.List.Induction

/-!
# Property C47: URL routing of the web UI

The specification says which part of a hash decides, in terms of infixes of the string; it mentions neither
the regular expressions nor the search.
-/

namespace Art.Spec

/-- A name, or what the code takes for one: the type may also be spelled with U+017F. -/
def HashName (w : Str) : Prop :=
  ∃ t r, w = t ++ '-' :: r ∧ Words NameCharU r ∧
    (upper (unlong t) = c!"REQ" ∨ upper (unlong t) = c!"SPC" ∨ upper (unlong t) = c!"TST")

/-- `w` is the first thing in `s` that looks like a name: leftmost, and then as long as possible. -/
def FirstNameIn (s w : Str) : Prop :=
  HashName w ∧ ∃ pre post, s = pre ++ w ++ post ∧
    (∀ a x b, s = a ++ x ++ b → HashName x → pre.length ≤ a.length) ∧
    (∀ x b, s = pre ++ x ++ b → HashName x → x.length ≤ w.length)

/-- Nothing in `s` looks like a name. -/
def NoName (s : Str) : Prop := ∀ a x b, s = a ++ x ++ b → ¬ HashName x

/-- A decimal digit, `nd` telling which characters beyond ASCII are digits. -/
def Digit (nd : Char → Bool) (c : Char) : Prop :=
  ('0' ≤ c ∧ c ≤ '9') ∨ (128 ≤ c.toNat ∧ nd c = true)

/-- `edit/` in any case. -/
def EditWord (p : Str) : Prop := upper p = c!"EDIT/"

/-- `d` is the run of digits after the first `edit/` in `s` that a digit follows. -/
def FirstEditIn (nd : Char → Bool) (s d : Str) : Prop :=
  ∃ pre p post, s = pre ++ p ++ d ++ post ∧ EditWord p ∧ d ≠ [] ∧ (∀ c ∈ d, Digit nd c) ∧
    (∀ a q x b, s = a ++ q ++ x :: b → EditWord q → Digit nd x → pre.length ≤ a.length) ∧
    (∀ x b, post = x :: b → ¬ Digit nd x)

/-- No `edit/` in `s` is followed by a digit. -/
def NoEdit (nd : Char → Bool) (s : Str) : Prop :=
  ∀ a q x b, s = a ++ q ++ x :: b → EditWord q → ¬ Digit nd x

/-- The hash of the start page. -/
def IsGraph (s : Str) : Prop := s = [] ∨ upper s = c!"GRAPH"

/-- `d` spells the number `n` with ASCII digits, leading zeros allowed. -/
inductive Spells : Str → Nat → Prop
  | one (c : Char) (k : Nat) : k < 10 → c.toNat = 48 + k → Spells [c] k
  | more (d : Str) (n : Nat) (c : Char) (k : Nat) : Spells d n → k < 10 → c.toNat = 48 + k →
      Spells (d ++ [c]) (10 * n + k)

end Art.Spec

namespace Art
open Spec Re

/-! Bridging lemmas. -/

theorem unlong_of_ascii {t : Str} (h : ∀ c ∈ t, c.toNat < 128) : unlong t = t := by
  unfold unlong
  conv_rhs => rw [← List.map_id t]
  apply List.map_congr_left
  intro c hc
  have := h c hc
  have hne : c ≠ longS := by
    rintro rfl
    exact absurd this (by decide)
  simp [hne]

theorem hashName_iff {w : Str} : HashName w ↔ Lang nameRe w := by
  have hfull : Lang nameRe w ↔ (∃ n, Name.fromStr w = .ok n) ∨ Name.fromStr w = .panic := by
    rw [← Re.isFull_iff]
    constructor
    · intro h
      cases hn : Name.fromStr w with
      | ok n => exact Or.inl ⟨n, rfl⟩
      | panic => exact Or.inr rfl
      | err e =>
        rw [Name.fromStr_eq_err] at hn
        unfold InternalName.fromStr at hn
        rw [h] at hn
        simp only [Bool.not_true, Bool.false_eq_true, if_false] at hn
        split at hn
        · simp at hn
        · split_ifs at hn
    · rintro h
      by_contra hf
      have hf' : nameRe.isFull w = false := by simpa using hf
      have : Name.fromStr w = .err .invalidName := by
        rw [Name.fromStr_eq_err]
        unfold InternalName.fromStr
        rw [hf']
        rfl
      rw [this] at h
      rcases h with ⟨n, h⟩ | h <;> simp at h
  rw [hfull, C01_accepted_iff, C01_panic_iff]
  constructor
  · rintro ⟨t, r, rfl, hr, ht⟩
    by_cases hl : longS ∈ t
    · exact Or.inr ⟨t, r, rfl, hr, hl, ht⟩
    · left
      have hu : unlong t = t := by
        unfold unlong
        conv_rhs => rw [← List.map_id t]
        apply List.map_congr_left
        intro c hc
        have : c ≠ longS := fun e => hl (e ▸ hc)
        simp [this]
      rw [hu] at ht
      exact ⟨t, r, rfl, ht, hr⟩
  · rintro (⟨t, r, rfl, ht, hr⟩ | ⟨t, r, rfl, hr, _, ht⟩)
    · refine ⟨t, r, rfl, hr, ?_⟩
      have hu : unlong t = t := by
        apply unlong_of_ascii
        rcases ht with ht | ht | ht
        · exact tyOf_ascii (t := .REQ) (tyOf_iff.2 ht)
        · exact tyOf_ascii (t := .SPC) (tyOf_iff.2 ht)
        · exact tyOf_ascii (t := .TST) (tyOf_iff.2 ht)
      rw [hu]
      exact ht
    · exact ⟨t, r, rfl, hr, ht⟩

theorem firstName_iff {s w : Str} : FirstNameIn s w ↔ FirstName s w := by
  constructor
  · rintro ⟨hw, pre, post, rfl, h1, h2⟩
    refine ⟨pre, post, by simp, hashName_iff.1 hw, ?_, ?_⟩
    · intro a x b e hx
      exact h1 a x b (by rw [e]; simp) (hashName_iff.2 hx)
    · intro x b e hx
      exact h2 x b (by rw [List.append_assoc, e]; simp) (hashName_iff.2 hx)
  · rintro ⟨pre, post, rfl, hw, h1, h2⟩
    refine ⟨hashName_iff.2 hw, pre, post, by simp, ?_, ?_⟩
    · intro a x b e hx
      exact h1 a x b (by rw [e]; simp) (hashName_iff.1 hx)
    · intro x b e hx
      exact h2 x b (List.append_cancel_left (by rw [e]; simp : pre ++ (w ++ post) = pre ++ (x ++ b)))
        (hashName_iff.1 hx)

theorem noName_iff {s : Str} : NoName s ↔ find nameUrlRe s = none := by
  rw [find_nameUrl_none]
  constructor
  · intro h a x b e hx
    exact h a x b (by rw [e]; simp) (hashName_iff.2 hx)
  · intro h a x b e hx
    exact h a x b (by rw [e]; simp) (hashName_iff.1 hx)

theorem digit_iff {nd : Char → Bool} {c : Char} : Digit nd c ↔ digitU nd c = true := by
  unfold Digit digitU asciiDigit
  rw [char_le, char_le]
  have h5 : '0'.toNat = 48 := rfl
  have h6 : '9'.toNat = 57 := rfl
  rw [h5, h6]
  simp

theorem not_digit_iff {nd : Char → Bool} {c : Char} : ¬ Digit nd c ↔ digitU nd c = false := by
  rw [digit_iff]; simp

/-- Folding and upper-casing agree on which strings spell a word without `s` and `k`. -/
theorem fold_upper_char {c d : Char} (hd : d.toNat < 128) (hs : foldC d ≠ 's') (hk : foldC d ≠ 'k') :
    foldC c = foldC d ↔ upperC c = upperC d := by
  constructor
  · intro h
    have hc : c.toNat < 128 := by
      have h' := congrArg Char.toNat h
      rw [foldC_toNat c] at h'
      have hs' : (foldC d).toNat ≠ 115 := fun e => hs (char_eq.2 e)
      have hk' : (foldC d).toNat ≠ 107 := fun e => hk (char_eq.2 e)
      have hdl : (foldC d).toNat < 128 := by rw [foldC_toNat]; split_ifs <;> omega
      split_ifs at h' <;> omega
    exact upperC_eq_of_foldC hc hd h
  · exact foldC_eq_of_upperC

theorem editWord_iff {p : Str} : EditWord p ↔ p.map foldC = c!"edit/" := by
  unfold EditWord upper
  have hE : ∀ c, foldC c = 'e' ↔ upperC c = 'E' := fun c =>
    fold_upper_char (c := c) (d := 'e') (by decide) (by decide) (by decide)
  have hD : ∀ c, foldC c = 'd' ↔ upperC c = 'D' := fun c =>
    fold_upper_char (c := c) (d := 'd') (by decide) (by decide) (by decide)
  have hI : ∀ c, foldC c = 'i' ↔ upperC c = 'I' := fun c =>
    fold_upper_char (c := c) (d := 'i') (by decide) (by decide) (by decide)
  have hT : ∀ c, foldC c = 't' ↔ upperC c = 'T' := fun c =>
    fold_upper_char (c := c) (d := 't') (by decide) (by decide) (by decide)
  have hS : ∀ c, foldC c = '/' ↔ upperC c = '/' := fun c =>
    fold_upper_char (c := c) (d := '/') (by decide) (by decide) (by decide)
  match p with
  | [] => simp
  | [_] => simp
  | [_, _] => simp
  | [_, _, _] => simp
  | [_, _, _, _] => simp
  | [a, b, c, d, e] => simp [hE, hD, hI, hT, hS]
  | _ :: _ :: _ :: _ :: _ :: _ :: _ => simp

theorem firstEdit_iff {nd : Char → Bool} {s d : Str} : FirstEditIn nd s d ↔ FirstEdit nd s d := by
  constructor
  · rintro ⟨pre, p, post, rfl, hp, h1, h2, h3, h4⟩
    refine ⟨pre, p, post, by simp, editWord_iff.1 hp, h1, fun c hc => digit_iff.1 (h2 c hc), ?_,
      fun x b e => not_digit_iff.1 (h4 x b e)⟩
    intro a q x b e hq hx
    exact h3 a q x b (by rw [e]; simp) (editWord_iff.2 hq) (digit_iff.2 hx)
  · rintro ⟨pre, p, post, rfl, hp, h1, h2, h3, h4⟩
    refine ⟨pre, p, post, by simp, editWord_iff.2 hp, h1, fun c hc => digit_iff.2 (h2 c hc), ?_,
      fun x b e => not_digit_iff.2 (h4 x b e)⟩
    intro a q x b e hq hx
    exact h3 a q x b (by rw [e]; simp) (editWord_iff.1 hq) (digit_iff.1 hx)

theorem noEdit_iff {nd : Char → Bool} {s : Str} : NoEdit nd s ↔ find (editUrlRe nd) s = none := by
  rw [find_edit_none]
  constructor
  · intro h a q x b e hq
    exact not_digit_iff.1 (h a q x b (by rw [e]; simp) (editWord_iff.2 hq))
  · intro h a q x b e hq
    exact not_digit_iff.2 (h a q x b (by rw [e]; simp) (editWord_iff.1 hq))

theorem lowerC_toNat (c : Char) : (lowerC c).toNat =
    if 65 ≤ c.toNat ∧ c.toNat ≤ 90 then c.toNat + 32 else c.toNat := by
  unfold lowerC
  split
  · rw [toNat_ofNat]; left; omega
  · rfl

theorem isGraph_iff {s : Str} : IsGraph s ↔ s.map lowerC = c!"graph" ∨ s = [] := by
  unfold IsGraph upper
  rw [or_comm]
  refine or_congr_left ?_
  have key : ∀ c d : Char, 97 ≤ d.toNat → d.toNat ≤ 122 → (upperC c = upperC d ↔ lowerC c = d) := by
    intro c d h1 h2
    rw [char_eq, char_eq, upperC_toNat, upperC_toNat, lowerC_toNat]
    split_ifs <;> omega
  have hG : ∀ c, upperC c = 'G' ↔ lowerC c = 'g' := fun c => key c 'g' (by decide) (by decide)
  have hR : ∀ c, upperC c = 'R' ↔ lowerC c = 'r' := fun c => key c 'r' (by decide) (by decide)
  have hA : ∀ c, upperC c = 'A' ↔ lowerC c = 'a' := fun c => key c 'a' (by decide) (by decide)
  have hP : ∀ c, upperC c = 'P' ↔ lowerC c = 'p' := fun c => key c 'p' (by decide) (by decide)
  have hH : ∀ c, upperC c = 'H' ↔ lowerC c = 'h' := fun c => key c 'h' (by decide) (by decide)
  match s with
  | [] => simp
  | [_] => simp
  | [_, _] => simp
  | [_, _, _] => simp
  | [_, _, _, _] => simp
  | [a, b, c, d, e] => simp [hG, hR, hA, hP, hH]
  | _ :: _ :: _ :: _ :: _ :: _ :: _ => simp

theorem spells_iff {d : Str} {n : Nat} : Spells d n ↔ d ≠ [] ∧ (∀ c ∈ d, asciiDigit c = true) ∧ decVal d = n := by
  have dig : ∀ c : Char, asciiDigit c = true ↔ c.toNat - 48 < 10 ∧ c.toNat = 48 + (c.toNat - 48) := by
    intro c; unfold asciiDigit; simp; omega
  constructor
  · intro h
    induction h with
    | one c k hk hc =>
      refine ⟨by simp, ?_, by simp [decVal, hc]⟩
      intro x hx
      simp at hx
      rw [hx, dig]; omega
    | more d n c k _ hk hc ih =>
      refine ⟨by simp, ?_, by rw [decVal_append, ih.2.2, hc]; omega⟩
      intro x hx
      rcases List.mem_append.1 hx with hx | hx
      · exact ih.2.1 x hx
      · simp at hx; rw [hx, dig]; omega
  · rintro ⟨hne, hd, rfl⟩
    induction d using List.reverseRecOn with
    | nil => exact absurd rfl hne
    | append_singleton d c ih =>
      have hc := (dig c).1 (hd c (by simp))
      by_cases hd0 : d = []
      · subst hd0
        have := Spells.one c _ hc.1 hc.2
        simpa [decVal] using this
      · rw [decVal_append]
        exact .more d _ c _ (ih hd0 (fun x hx => hd x (by simp [hx]))) hc.1 hc.2

theorem usize_iff {lim : Nat} {d : Str} {n : Nat} : usizeFromStr lim d = some n ↔ Spells d n ∧ n < lim := by
  rw [spells_iff]
  unfold usizeFromStr
  simp only [List.all_eq_true]
  split
  · rename_i h
    constructor
    · intro e
      simp at e
      subst e
      exact ⟨⟨h.1, h.2.1, rfl⟩, h.2.2⟩
    · rintro ⟨⟨_, _, rfl⟩, _⟩
      rfl
  · rename_i h
    constructor
    · intro e; simp at e
    · rintro ⟨⟨h1, h2, rfl⟩, h3⟩
      exact absurd ⟨h1, h2, h3⟩ h

/-! ## C47 -/

/-- Which view a hash shows, for every hash. The cases exclude each other and leave nothing out
(`C47_exhaustive`), so every hash is routed to exactly one view. -/
theorem C47_route (nd : Char → Bool) (lim : Nat) (s : Str) :
    (IsGraph s → View.fromHash nd lim s = .ok .graph) ∧
    (¬ IsGraph s → ∀ w, FirstNameIn s w →
      (∀ n : Name, n.raw = w → View.fromHash nd lim s = .ok (.artifact n)) ∧
      ((∀ n : Name, n.raw ≠ w) → View.fromHash nd lim s = .panic)) ∧
    (¬ IsGraph s → NoName s → ∀ d, FirstEditIn nd s d →
      (∀ n, Spells d n → n < lim → View.fromHash nd lim s = .ok (.edit n)) ∧
      ((∀ n, Spells d n → lim ≤ n) → View.fromHash nd lim s = .ok .notFound)) ∧
    (¬ IsGraph s → NoName s → NoEdit nd s → View.fromHash nd lim s = .ok .notFound) := by
  have g : ∀ h : ¬ IsGraph s, ¬ (s.map lowerC = c!"graph" ∨ s = []) := fun h h' => h (isGraph_iff.2 h')
  refine ⟨?_, ?_, ?_, ?_⟩
  · intro h
    unfold View.fromHash
    rw [if_pos (isGraph_iff.1 h)]
  · intro h w hw
    obtain ⟨m, r, c, h1, h2⟩ := find_nameUrl_of_first (firstName_iff.1 hw)
    unfold View.fromHash
    rw [if_neg (g h), h1]
    simp only [h2]
    constructor
    · rintro n rfl
      rw [Name.fromStr_raw_self]
    · intro hn
      cases hf : Name.fromStr w with
      | ok n => exact absurd (Name.raw_of_fromStr hf) (hn n)
      | err e => rfl
      | panic => rfl
  · intro h hno d hd
    obtain ⟨m, r, c, h1, h2⟩ := find_edit_of_first (firstEdit_iff.1 hd)
    unfold View.fromHash
    rw [if_neg (g h), noName_iff.1 hno, h1]
    simp only [h2]
    constructor
    · intro n hs hl
      rw [usize_iff.2 ⟨hs, hl⟩]
    · intro hn
      cases hu : usizeFromStr lim d with
      | none => rfl
      | some n =>
        have := usize_iff.1 hu
        exact absurd (hn n this.1) (by omega)
  · intro h hno hne
    unfold View.fromHash
    rw [if_neg (g h), noName_iff.1 hno, noEdit_iff.1 hne]

/-- A hash has a first name or none, and a first edit number or none. -/
theorem C47_exhaustive (nd : Char → Bool) (s : Str) :
    (NoName s ∨ ∃ w, FirstNameIn s w) ∧ (NoEdit nd s ∨ ∃ d, FirstEditIn nd s d) := by
  constructor
  · cases h : find nameUrlRe s with
    | none => exact Or.inl (noName_iff.2 h)
    | some q =>
      obtain ⟨m, r, c⟩ := q
      obtain ⟨w, _, hw⟩ := find_nameUrl h
      exact Or.inr ⟨w, firstName_iff.2 hw⟩
  · cases h : find (editUrlRe nd) s with
    | none => exact Or.inl (noEdit_iff.2 h)
    | some q =>
      obtain ⟨m, r, c⟩ := q
      obtain ⟨w, _, hw⟩ := find_edit h
      exact Or.inr ⟨w, firstEdit_iff.2 hw⟩

/-- The only panic: the first name in the hash spells its type with U+017F. In particular no ASCII hash
panics. -/
theorem C47_panic_iff (nd : Char → Bool) (lim : Nat) (s : Str) :
    View.fromHash nd lim s = .panic ↔
      ¬ IsGraph s ∧ ∃ t r, FirstNameIn s (t ++ '-' :: r) ∧ longS ∈ t ∧ '-' ∉ t := by
  have hR := C47_route nd lim s
  have panicName : ∀ w, HashName w → (∀ n : Name, n.raw ≠ w) → ∃ t r, w = t ++ '-' :: r ∧ longS ∈ t ∧ '-' ∉ t := by
    intro w hw hn
    obtain ⟨t, r, rfl, hr, ht⟩ := hw
    refine ⟨t, r, rfl, ?_, ?_⟩
    · by_contra hl
      have hu : unlong t = t := by
        unfold unlong
        conv_rhs => rw [← List.map_id t]
        apply List.map_congr_left
        intro c hc
        have : c ≠ longS := fun e => hl (e ▸ hc)
        simp [this]
      rw [hu] at ht
      obtain ⟨n, hn'⟩ := (C01_accepted_iff _).2 ⟨t, r, rfl, ht, hr⟩
      exact hn n (Name.raw_of_fromStr hn')
    · intro hm
      have hm' : '-' ∈ upper (unlong t) := by
        unfold upper unlong
        rw [List.map_map]
        exact List.mem_map.2 ⟨'-', hm, by decide⟩
      rcases ht with h | h | h <;> rw [h] at hm' <;> revert hm' <;> decide
  have nameLong : ∀ t r : Str, longS ∈ t → '-' ∉ t → ∀ n : Name, n.raw ≠ t ++ '-' :: r := by
    intro t r hl hd n e
    obtain ⟨t', r', e', ht', _⟩ := (C01_accepted_iff n.raw).1 ⟨n, Name.fromStr_raw_self n⟩
    have hd' : '-' ∉ t' := by
      intro hm
      have : upperC '-' ∈ upper t' := List.mem_map_of_mem hm
      rcases ht' with h | h | h <;> rw [h] at this <;> revert this <;> decide
    have ht : t = t' := (split_dash (e.symm.trans e') hd hd').1
    subst ht
    have : upperC longS ∈ upper t := List.mem_map_of_mem hl
    rcases ht' with h | h | h <;> rw [h] at this <;> revert this <;> decide
  constructor
  · intro hp
    have hg : ¬ IsGraph s := fun hg => by rw [hR.1 hg] at hp; cases hp
    refine ⟨hg, ?_⟩
    rcases (C47_exhaustive nd s).1 with hno | ⟨w, hw⟩
    · exfalso
      rcases (C47_exhaustive nd s).2 with hne | ⟨d, hd⟩
      · rw [hR.2.2.2 hg hno hne] at hp; cases hp
      · by_cases hs : ∃ n, Spells d n ∧ n < lim
        · obtain ⟨n, h1, h2⟩ := hs
          rw [(hR.2.2.1 hg hno d hd).1 n h1 h2] at hp; cases hp
        · push Not at hs
          rw [(hR.2.2.1 hg hno d hd).2 hs] at hp; cases hp
    · have hn : ∀ n : Name, n.raw ≠ w := by
        intro n e
        rw [(hR.2.1 hg w hw).1 n e] at hp; cases hp
      obtain ⟨t, r, rfl, h1, h2⟩ := panicName w hw.1 hn
      exact ⟨t, r, hw, h1, h2⟩
  · rintro ⟨hg, t, r, hw, h1, h2⟩
    exact (hR.2.1 hg _ hw).2 (nameLong t r h1 h2)

/-- No ASCII hash makes the routing panic. -/
theorem C47_ascii (nd : Char → Bool) (lim : Nat) (s : Str) (h : ∀ c ∈ s, c.toNat < 128) :
    View.fromHash nd lim s ≠ .panic := by
  rw [ne_eq, C47_panic_iff]
  rintro ⟨_, t, r, ⟨_, pre, post, e, _⟩, hl, _⟩
  have : longS ∈ s := by rw [e]; simp [hl]
  exact absurd (h _ this) (by decide)

/-- Routing never fails with a panic: false, for one non-ASCII character. -/
theorem C47_no_panic_false : ¬ ∀ s : Str, View.fromHash (fun _ => false) (2 ^ 32) s ≠ .panic := by
  intro h
  exact h [longS, 'P', 'C', '-', 'a'] (by rfl)

/-- Following the link to an artifact shows that artifact, for every name. -/
theorem C47_artifact_link (nd : Char → Bool) (lim : Nat) (n : Name) :
    View.fromHash nd lim n.raw = .ok (.artifact n) ∧
    View.fromHash nd lim (c!"artifacts/" ++ n.raw) = .ok (.artifact n) := by
  have hlang : Lang nameRe n.raw := hashName_iff.1 (by
    obtain ⟨t, r, e, ht, hr⟩ := (C01_accepted_iff n.raw).1 ⟨n, Name.fromStr_raw_self n⟩
    refine ⟨t, r, e, hr, ?_⟩
    have hu : unlong t = t := by
      apply unlong_of_ascii
      rcases ht with ht | ht | ht
      · exact tyOf_ascii (t := .REQ) (tyOf_iff.2 ht)
      · exact tyOf_ascii (t := .SPC) (tyOf_iff.2 ht)
      · exact tyOf_ascii (t := .TST) (tyOf_iff.2 ht)
    rw [hu]; exact ht)
  obtain ⟨t, r, e, ht, _⟩ := (C01_accepted_iff n.raw).1 ⟨n, Name.fromStr_raw_self n⟩
  have hdash : ∀ x : Str, '-' ∈ x → ¬ IsGraph x := by
    rintro x hx (rfl | hg)
    · simp at hx
    · have : upperC '-' ∈ upper x := List.mem_map_of_mem hx
      rw [hg] at this
      revert this; decide
  have hd : '-' ∈ n.raw := by rw [e]; simp
  constructor
  · refine ((C47_route nd lim n.raw).2.1 (hdash _ hd) n.raw ?_).1 n rfl
    refine firstName_iff.2 ⟨[], [], by simp, hlang, by simp, ?_⟩
    intro x b hx _
    simp at hx
    rw [hx]; simp
  · refine ((C47_route nd lim _).2.1 (hdash _ (List.mem_append_right _ hd)) n.raw ?_).1 n rfl
    refine firstName_iff.2 ⟨c!"artifacts/", [], by simp, hlang, ?_, ?_⟩
    · intro a x b hx hl
      by_contra hlt
      exact no_name_in_prefix (p := c!"artifacts/") rfl hl hx (by simpa using hlt)
    · intro x b hx _
      simp at hx
      rw [hx]; simp

/-- Following the link to an edit shows that edit, for every id the browser can hold. -/
theorem C47_edit_link (nd : Char → Bool) (lim : Nat) (id : Nat) (h : id < lim) :
    View.fromHash nd lim (hashEdit id) = .ok (.edit id) := by
  have hdig : ∀ c ∈ showNat id, asciiDigit c = true := fun c hc => showNat_digit hc
  have hnodash : '-' ∉ hashEdit id := by
    intro hm
    unfold hashEdit at hm
    rcases List.mem_append.1 hm with hm | hm
    · revert hm; decide
    · exact absurd (hdig _ hm) (by decide)
  have hno : NoName (hashEdit id) := by
    rintro a x b e ⟨t, r, rfl, _⟩
    exact hnodash (by rw [e]; simp)
  have hg : ¬ IsGraph (hashEdit id) := by
    rintro (hg | hg)
    · simp [hashEdit] at hg
    · simp [hashEdit, upper] at hg
      exact absurd hg.1 (by decide)
  have hdU : ∀ c, asciiDigit c = true → digitU nd c = true := by
    intro c hc; simp [digitU, hc]
  refine ((C47_route nd lim _).2.2.1 hg hno (showNat id) ?_).1 id ?_ h
  · refine firstEdit_iff.2 ⟨[], c!"edit/", [], by simp [hashEdit], by decide, showNat_ne_nil id,
      fun c hc => hdU c (hdig c hc), by simp, by simp⟩
  · exact spells_iff.2 ⟨showNat_ne_nil id, hdig, decVal_showNat id⟩

/-- Distinct edits and distinct artifacts have distinct links. -/
theorem C47_links_injective (i j : Nat) (n m : Name) :
    (hashEdit i = hashEdit j → i = j) ∧ (n.raw = m.raw → n = m) ∧ hashEdit i ≠ n.raw ∧
    hashGraph ≠ n.raw ∧ hashGraph ≠ hashEdit i := by
  have a := C47_edit_link (fun _ => false) (i + j + 1) i (by omega)
  have b := C47_edit_link (fun _ => false) (i + j + 1) j (by omega)
  have c := (C47_artifact_link (fun _ => false) (i + j + 1) n).1
  have d := (C47_artifact_link (fun _ => false) (i + j + 1) m).1
  have g := (C47_route (fun _ => false) (i + j + 1) hashGraph).1 (Or.inr (by decide))
  refine ⟨?_, ?_, ?_, ?_, ?_⟩
  · intro e; rw [e, b] at a; injection a with a; injection a with a; exact a.symm
  · intro e; rw [e, d] at c; injection c with c; injection c with c; exact c.symm
  · intro e; rw [e, c] at a; injection a with a; cases a
  · intro e; rw [e, c] at g; injection g with g; cases g
  · intro e; rw [e, a] at g; injection g with g; cases g

/-- The routing is by what the hash contains, not by what it is: whatever is put around a name, the page of
some artifact is shown (or the routing panics), never an edit and never "not found". -/
theorem C47_unanchored (nd : Char → Bool) (lim : Nat) (a w b : Str) (hw : HashName w)
    (hg : ¬ IsGraph (a ++ w ++ b)) :
    View.fromHash nd lim (a ++ w ++ b) = .panic ∨ ∃ n, View.fromHash nd lim (a ++ w ++ b) = .ok (.artifact n) := by
  have hR := (C47_route nd lim (a ++ w ++ b)).2.1 hg
  rcases (C47_exhaustive nd (a ++ w ++ b)).1 with hno | ⟨x, hx⟩
  · exact absurd hw (hno a w b rfl)
  · by_cases hn : ∃ n : Name, n.raw = x
    · obtain ⟨n, hn⟩ := hn
      exact Or.inr ⟨n, (hR x hx).1 n hn⟩
    · push Not at hn
      exact Or.inl ((hR x hx).2 hn)

/-! Concrete cases. -/
section
private def V := View.fromHash (fun _ => false) (2 ^ 32)
example : V c!"GrAph" = .ok .graph := by rfl
example : V c!"#artifacts/REQ-foo-bar.sub" = .ok (.artifact (Name.lit c!"REQ-foo-bar")) := by rfl
example : V c!"edit/REQ-foo" = .ok (.artifact (Name.lit c!"REQ-foo")) := by rfl
example : V c!"xxreq-a--b/SPC-c" = .ok (.artifact (Name.lit c!"req-a")) := by rfl
example : V c!"eDit/0042x" = .ok (.edit 42) := by rfl
example : V c!"edit/4294967296" = .ok .notFound := by rfl
example : V c!"edit/4294967295" = .ok (.edit 4294967295) := by rfl
example : V c!"edits" = .ok .notFound := by rfl
example : FirstNameIn c!"xxreq-a--b/SPC-c" c!"req-a" := by
  obtain ⟨w, h1, h2⟩ := find_nameUrl (s := c!"xxreq-a--b/SPC-c") (m := c!"req-a") (r := c!"--b/SPC-c")
    (c := [(1, c!"req-a")]) (by decide)
  cases h1
  exact firstName_iff.2 h2
end

end Art
