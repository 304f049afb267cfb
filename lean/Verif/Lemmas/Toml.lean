import Verif.Spec.Toml
import Verif.Lemmas.Yaml

/-! Helper lemmas for TOML: the reader against the grammar. -/

namespace Art
open Spec

/-! ### texts in quotes -/

theorem tomlPlain_iff (c : Char) : tomlPlain c = true ↔ TomlPlain c := by
  unfold tomlPlain TomlPlain
  simp

theorem tomlEscape_of {s : Str} {c : Char} (h : TomlBasicChar ('\\' :: s) c) (hs : s ≠ []) (r : Str) : tomlEscape (s ++ r) = some (c, r) := by
  generalize hx : '\\' :: s = x at h
  cases h with
  | itself h1 h2 h3 => cases hx; exact absurd rfl h3
  | short h =>
    cases hx
    simp only [List.mem_cons, Prod.mk.injEq, List.not_mem_nil, or_false] at h
    rcases h with ⟨rfl, rfl⟩ | ⟨rfl, rfl⟩ | ⟨rfl, rfl⟩ | ⟨rfl, rfl⟩ | ⟨rfl, rfl⟩ | ⟨rfl, rfl⟩ | ⟨rfl, rfl⟩ <;> rfl
  | @hex e k t _ h ht hk =>
    cases hx
    subst hk
    simp only [List.mem_cons, Prod.mk.injEq, List.not_mem_nil, or_false] at h
    rcases h with ⟨rfl, hk⟩ | ⟨rfl, hk⟩
    · show hexChar 4 (t ++ r) = _; rw [← hk]; exact hexChar_of ht r
    · show hexChar 8 (t ++ r) = _; rw [← hk]; exact hexChar_of ht r

theorem tomlEscape_spec {s r : Str} {c : Char} (h : tomlEscape s = some (c, r)) : ∃ t, TomlBasicChar ('\\' :: t) c ∧ s = t ++ r ∧ t ≠ [] := by
  cases s with
  | nil => cases h
  | cons e s =>
    have short : ∀ n, (e, n) ∈ [('b', 8), ('t', 9), ('n', 10), ('f', 12), ('r', 13), ('"', 0x22), ('\\', 0x5c)] → Char.ofNat n = c → s = r →
        ∃ t, TomlBasicChar ('\\' :: t) c ∧ e :: s = t ++ r ∧ t ≠ [] := by
      rintro n hn rfl rfl
      exact ⟨[e], .short hn, rfl, by simp⟩
    have hex : ∀ k, (e, k) ∈ [('u', 4), ('U', 8)] → hexChar k s = some (c, r) → ∃ t, TomlBasicChar ('\\' :: t) c ∧ e :: s = t ++ r ∧ t ≠ [] := by
      intro k hk h
      obtain ⟨t, rfl, ht, h⟩ := hexChar_spec h
      exact ⟨e :: t, .hex hk h ht, rfl, by simp⟩
    rw [tomlEscape] at h
    split_ifs at h with h1 h2 h3 h4 h5 h6 h7 h8
    · cases h; subst h1; exact short 8 (by decide) rfl rfl
    · cases h; subst h2; exact short 9 (by decide) rfl rfl
    · cases h; subst h3; exact short 10 (by decide) rfl rfl
    · cases h; subst h4; exact short 12 (by decide) rfl rfl
    · cases h; subst h5; exact short 13 (by decide) rfl rfl
    · cases h
      rcases h6 with rfl | rfl
      · exact short 0x22 (by decide) rfl rfl
      · exact short 0x5c (by decide) rfl rfl
    · subst h7; exact hex 4 (by decide) h
    · subst h8; exact hex 8 (by decide) h

theorem basicChar_cases {s : Str} {c : Char} (h : TomlBasicChar s c) : (s = [c] ∧ TomlPlain c ∧ c ≠ '"' ∧ c ≠ '\\') ∨ ∃ t, s = '\\' :: t ∧ t ≠ [] := by
  cases h with
  | itself h1 h2 h3 => exact .inl ⟨rfl, h1, h2, h3⟩
  | short => exact .inr ⟨_, rfl, by simp⟩
  | hex => exact .inr ⟨_, rfl, by simp⟩

theorem tomlBasic_of {i t : Str} (h : TomlBasicChars i t) (x : Str) : ∀ n, i.length < n → tomlBasic n (i ++ '"' :: x) = some (t, x) := by
  induction h with
  | nil =>
    intro n hn
    obtain ⟨n, rfl⟩ := Nat.exists_eq_succ_of_ne_zero (by simp at hn; omega : n ≠ 0)
    rfl
  | @cons s t c r hs ht ih =>
    intro n hn
    obtain ⟨n, rfl⟩ := Nat.exists_eq_succ_of_ne_zero (by omega : n ≠ 0)
    rw [List.length_append] at hn
    rcases basicChar_cases hs with ⟨rfl, h1, h2, h3⟩ | ⟨u, rfl, hu⟩
    · rw [List.append_assoc]
      show (if c = '"' then _ else if c = '\\' then _ else if tomlPlain c then (tomlBasic n (t ++ '"' :: x)).bind (fun t => some (c :: t.1, t.2)) else none) = _
      rw [if_neg h2, if_neg h3, if_pos ((tomlPlain_iff c).2 h1), ih n (by simp at hn; omega)]
      rfl
    · rw [List.append_assoc]
      show (if '\\' = '"' then _ else if '\\' = '\\' then (tomlEscape (u ++ (t ++ '"' :: x))).bind (fun y => (tomlBasic n y.2).bind (fun t => some (y.1 :: t.1, t.2))) else _) = _
      rw [if_neg (by decide), if_pos rfl, tomlEscape_of hs hu]
      show (tomlBasic n (t ++ '"' :: x)).bind (fun t => some (c :: t.1, t.2)) = _
      rw [ih n (by simp at hn; omega)]
      rfl

theorem tomlBasic_spec : ∀ {n : Nat} {s t x : Str}, tomlBasic n s = some (t, x) → ∃ i, TomlBasicChars i t ∧ s = i ++ '"' :: x := by
  intro n
  induction n with
  | zero => intro s t x h; cases h
  | succ n ih =>
    intro s t x h
    cases s with
    | nil => cases h
    | cons c s =>
      unfold tomlBasic at h
      split at h
      · rename_i he
        cases h; subst he; exact ⟨[], .nil, rfl⟩
      rename_i h2
      split at h
      · rename_i he
        subst he
        obtain ⟨⟨d, r⟩, h1, h⟩ := Option.bind_eq_some_iff.1 h
        obtain ⟨⟨u, y⟩, h3, h⟩ := Option.bind_eq_some_iff.1 h
        cases h
        obtain ⟨e, he, rfl, hne⟩ := tomlEscape_spec h1
        obtain ⟨i, hi, rfl⟩ := ih h3
        exact ⟨('\\' :: e) ++ i, .cons he hi, by simp⟩
      rename_i h3
      split at h
      · rename_i h1
        obtain ⟨⟨u, y⟩, h4, h⟩ := Option.bind_eq_some_iff.1 h
        cases h
        obtain ⟨i, hi, rfl⟩ := ih h4
        exact ⟨[c] ++ i, .cons (.itself ((tomlPlain_iff c).1 h1) h2 h3) hi, rfl⟩
      · cases h

theorem tomlLiteral_iff (s t x : Str) : tomlLiteral s = some (t, x) ↔ (∀ c ∈ t, TomlPlain c ∧ c ≠ '\'') ∧ s = t ++ '\'' :: x := by
  induction s generalizing t with
  | nil => simp [tomlLiteral]
  | cons c s ih =>
    unfold tomlLiteral
    by_cases hc : c = '\''
    · rw [if_pos hc]
      subst hc
      constructor
      · intro h; cases h; exact ⟨by simp, rfl⟩
      · rintro ⟨h1, h2⟩
        cases t with
        | nil => cases h2; rfl
        | cons d t =>
          cases h2
          exact absurd rfl (h1 '\'' (by simp)).2
    · rw [if_neg hc]
      constructor
      · intro h
        split at h
        · rename_i hp
          obtain ⟨⟨u, y⟩, h1, h⟩ := Option.bind_eq_some_iff.1 h
          cases h
          obtain ⟨h2, rfl⟩ := (ih _).1 h1
          refine ⟨?_, rfl⟩
          intro d hd
          rcases List.mem_cons.1 hd with rfl | hd
          · exact ⟨(tomlPlain_iff _).1 hp, hc⟩
          · exact h2 d hd
        · cases h
      · rintro ⟨h1, h2⟩
        cases t with
        | nil => cases h2; exact absurd rfl hc
        | cons d t =>
          cases h2
          rw [if_pos ((tomlPlain_iff _).2 (h1 c (by simp)).1), (ih t).2 ⟨fun d hd => h1 d (by simp [hd]), rfl⟩]
          rfl

theorem tomlString_of {s v : Str} (h : TomlStringIs s v) (x : Str) : tomlString (s ++ x) = some (v, x) := by
  cases h with
  | @basic i _ hi =>
    rw [show '"' :: i ++ ['"'] ++ x = '"' :: (i ++ '"' :: x) by simp]
    rw [tomlString, if_pos rfl]
    exact tomlBasic_of hi x _ (by simp)
  | literal hv =>
    rw [show '\'' :: v ++ ['\''] ++ x = '\'' :: (v ++ '\'' :: x) by simp]
    rw [tomlString, if_neg (by decide), if_pos rfl]
    exact (tomlLiteral_iff _ _ _).2 ⟨hv, rfl⟩

theorem tomlString_spec {s v x : Str} (h : tomlString s = some (v, x)) : ∃ t, TomlStringIs t v ∧ s = t ++ x := by
  cases s with
  | nil => cases h
  | cons c s =>
    rw [tomlString] at h
    split_ifs at h with h1 h2
    · subst h1
      obtain ⟨i, hi, rfl⟩ := tomlBasic_spec h
      exact ⟨_, .basic hi, by simp⟩
    · subst h2
      obtain ⟨hi, rfl⟩ := (tomlLiteral_iff _ _ _).1 h
      exact ⟨_, .literal hi, by simp⟩

/-- The first character of a text in quotes. -/
theorem string_head {s v : Str} (h : TomlStringIs s v) : ∃ c r, s = c :: r ∧ (c = '"' ∨ c = '\'') := by
  cases h with
  | basic => exact ⟨_, _, rfl, .inl rfl⟩
  | literal => exact ⟨_, _, rfl, .inr rfl⟩

/-! ### white space -/

/-- White space does not come next. -/
def NoBlank (s : Str) : Prop := ∀ c, s.head? = some c → c ≠ ' ' ∧ c ≠ '\t'

theorem tomlSkip_of {w s : Str} (hw : TomlBlank w) (hs : NoBlank s) : tomlSkip (w ++ s) = s := by
  unfold tomlSkip
  rw [List.dropWhile_append_of_pos]
  · cases s with
    | nil => rfl
    | cons c s =>
      obtain ⟨h1, h2⟩ := hs c rfl
      exact List.dropWhile_cons_of_neg (by simp [h1, h2])
  · intro c hc
    rcases hw c hc with rfl | rfl <;> rfl

theorem tomlSkip_spec (s : Str) : ∃ w, TomlBlank w ∧ s = w ++ tomlSkip s ∧ NoBlank (tomlSkip s) := by
  refine ⟨s.takeWhile fun c => c == ' ' || c == '\t', ?_, (List.takeWhile_append_dropWhile).symm, ?_⟩
  · intro c hc
    have := List.mem_takeWhile_imp hc
    simpa using this
  · intro c hc
    have h : ∀ s : Str, (tomlSkip s).head? = some c → ¬ (c = ' ' ∨ c = '\t') := by
      intro s
      induction s with
      | nil => intro h; cases h
      | cons d s ih =>
        unfold tomlSkip
        by_cases hd : d = ' ' ∨ d = '\t'
        · rw [List.dropWhile_cons_of_pos (by simpa using hd)]
          exact ih
        · rw [List.dropWhile_cons_of_neg (by simpa using hd)]
          intro h
          cases h
          exact hd
    have := h s hc
    tauto

theorem noBlank_cons {c : Char} {s : Str} : NoBlank (c :: s) ↔ c ≠ ' ' ∧ c ≠ '\t' := by
  unfold NoBlank
  simp

theorem noBlank_nil : NoBlank [] := by intro c h; cases h

theorem string_noBlank {s v x : Str} (h : TomlStringIs s v) : NoBlank (s ++ x) := by
  obtain ⟨c, r, rfl, hc⟩ := string_head h
  rw [List.cons_append, noBlank_cons]
  rcases hc with rfl | rfl <;> decide

/-! ### keys -/

theorem tomlBare_iff (c : Char) : tomlBare c = true ↔ TomlBare c := by
  unfold tomlBare TomlBare
  simp only [Bool.or_eq_true, Bool.and_eq_true, decide_eq_true_eq, beq_iff_eq]
  tauto

/-- No character of a key comes next. -/
def KeyEnds (s : Str) : Prop := ∀ c, s.head? = some c → ¬ TomlBare c

theorem tomlKey_of {s k : Str} (h : TomlKeyIs s k) {x : Str} (hx : KeyEnds x) : tomlKey (s ++ x) = some (k, x) := by
  cases h with
  | bare h0 hb =>
    have ht : ∀ k : Str, (∀ c ∈ k, TomlBare c) → (k ++ x).takeWhile tomlBare = k ∧ (k ++ x).dropWhile tomlBare = x := by
      intro k hb
      have hb' : ∀ c ∈ k, tomlBare c = true := fun c hc => (tomlBare_iff c).2 (hb c hc)
      rw [List.takeWhile_append_of_pos hb', List.dropWhile_append_of_pos hb']
      cases x with
      | nil => simp
      | cons d x =>
        have : tomlBare d ≠ true := fun h => hx d rfl ((tomlBare_iff d).1 h)
        rw [List.takeWhile_cons_of_neg this, List.dropWhile_cons_of_neg this]
        simp
    cases s with
    | nil => exact absurd rfl h0
    | cons c s =>
      have := ht _ hb
      rw [List.cons_append] at this ⊢
      rw [tomlKey, if_pos ((tomlBare_iff c).2 (hb c (by simp))), this.1, this.2]
  | quoted h =>
    obtain ⟨c, r, rfl, hc⟩ := string_head h
    have := tomlString_of h x
    rw [List.cons_append] at this ⊢
    rw [tomlKey, if_neg (by rcases hc with rfl | rfl <;> decide)]
    exact this

theorem tomlKey_spec {s k x : Str} (h : tomlKey s = some (k, x)) : ∃ t, TomlKeyIs t k ∧ s = t ++ x := by
  cases s with
  | nil => cases h
  | cons c s =>
    rw [tomlKey] at h
    split_ifs at h with h1
    · cases h
      refine ⟨_, .bare ?_ ?_, List.takeWhile_append_dropWhile.symm⟩
      · rw [List.takeWhile_cons_of_pos h1]; simp
      · intro d hd
        exact (tomlBare_iff d).1 (List.mem_takeWhile_imp hd)
    · obtain ⟨t, ht, e⟩ := tomlString_spec h
      exact ⟨t, .quoted ht, e⟩

theorem key_head {s k : Str} (h : TomlKeyIs s k) : ∃ c r, s = c :: r ∧ (TomlBare c ∨ c = '"' ∨ c = '\'') := by
  cases h with
  | bare h0 hb =>
    cases s with
    | nil => exact absurd rfl h0
    | cons c s => exact ⟨c, s, rfl, .inl (hb c (by simp))⟩
  | quoted h =>
    obtain ⟨c, r, e, h⟩ := string_head h
    exact ⟨c, r, e, .inr h⟩

theorem key_first {c : Char} (h : TomlBare c ∨ c = '"' ∨ c = '\'') : c ≠ ' ' ∧ c ≠ '\t' ∧ c ≠ '[' ∧ c ≠ '#' := by
  refine ⟨?_, ?_, ?_, ?_⟩
  all_goals
    rintro rfl
    revert h
    rw [← tomlBare_iff]
    decide

theorem key_noBlank {s k x : Str} (h : TomlKeyIs s k) : NoBlank (s ++ x) := by
  obtain ⟨c, r, rfl, hc⟩ := key_head h
  rw [List.cons_append, noBlank_cons]
  exact ⟨(key_first hc).1, (key_first hc).2.1⟩

theorem blank_keyEnds {w : Str} {c : Char} {r : Str} (hw : TomlBlank w) (hc : ¬ TomlBare c) : KeyEnds (w ++ c :: r) := by
  intro d hd
  cases w with
  | nil => cases hd; exact hc
  | cons e w =>
    cases hd
    have := hw d (by simp)
    rw [← tomlBare_iff]
    rcases this with rfl | rfl <;> decide

/-! ### lists -/

theorem tomlItems_of {t : Str} {vs : List Str} (h : TomlItemsAre t vs) (x : Str) : ∀ n, t.length ≤ n → tomlItems n (t ++ x) = some (vs, x) := by
  have first : ∀ {w s v : Str} (y : Str), TomlBlank w → TomlStringIs s v → ∀ n, tomlItems (n + 1) (w ++ s ++ y) =
      (match tomlSkip y with
      | ']' :: r => some ([v], r)
      | ',' :: r => (tomlItems n r).bind fun z => some (v :: z.1, z.2)
      | _ => none) := by
    intro w s v y hw hs n
    rw [tomlItems, List.append_assoc, tomlSkip_of hw (string_noBlank hs)]
    have hst := tomlString_of hs y
    obtain ⟨c, r, rfl, hc⟩ := string_head hs
    split
    · rename_i e
      cases e
      rcases hc with h | h <;> cases h
    · rw [hst]
      rfl
  induction h with
  | @nil w hw =>
    intro n hn
    obtain ⟨n, rfl⟩ := Nat.exists_eq_succ_of_ne_zero (by simp at hn; omega : n ≠ 0)
    rw [List.append_assoc, tomlItems, tomlSkip_of hw (by rw [List.singleton_append, noBlank_cons]; decide)]
    rfl
  | @last w s v w' hw hs hw' =>
    intro n hn
    obtain ⟨n, rfl⟩ := Nat.exists_eq_succ_of_ne_zero (by simp at hn; omega : n ≠ 0)
    rw [show w ++ s ++ w' ++ [']'] ++ x = w ++ s ++ (w' ++ ']' :: x) by simp, first _ hw hs, tomlSkip_of hw' (by rw [noBlank_cons]; decide)]
    rfl
  | @cons w s v w' t vs hw hs hw' ht ih =>
    intro n hn
    obtain ⟨n, rfl⟩ := Nat.exists_eq_succ_of_ne_zero (by simp at hn; omega : n ≠ 0)
    rw [show w ++ s ++ w' ++ ',' :: t ++ x = w ++ s ++ (w' ++ ',' :: (t ++ x)) by simp, first _ hw hs, tomlSkip_of hw' (by rw [noBlank_cons]; decide)]
    show (tomlItems n (t ++ x)).bind _ = _
    rw [ih n (by simp at hn; omega)]
    rfl

theorem tomlItems_spec : ∀ {n : Nat} {s : Str} {vs : List Str} {x : Str}, tomlItems n s = some (vs, x) → ∃ t, TomlItemsAre t vs ∧ s = t ++ x := by
  intro n
  induction n with
  | zero => intro s vs x h; cases h
  | succ n ih =>
    intro s vs x h
    obtain ⟨w, hw, he, -⟩ := tomlSkip_spec s
    rw [tomlItems] at h
    split at h
    · rename_i r hr
      cases h
      rw [hr] at he
      exact ⟨_, .nil hw, by rw [he]; simp⟩
    · obtain ⟨⟨v, r⟩, h1, h⟩ := Option.bind_eq_some_iff.1 h
      obtain ⟨t, ht, e⟩ := tomlString_spec h1
      obtain ⟨w', hw', he', -⟩ := tomlSkip_spec r
      dsimp only at h
      split at h
      · rename_i r' hr'
        cases h
        rw [hr'] at he'
        exact ⟨_, .last hw ht hw', by rw [he, e, he']; simp⟩
      · rename_i r' hr'
        obtain ⟨⟨us, y⟩, h2, h⟩ := Option.bind_eq_some_iff.1 h
        cases h
        obtain ⟨t', ht', rfl⟩ := ih h2
        rw [hr'] at he'
        exact ⟨_, .cons hw ht hw' ht', by rw [he, e, he']; simp⟩
      · cases h

theorem tomlVal_of {t : Str} {v : NamesDoc} (h : TomlValueIs t v) (x : Str) : tomlVal (t ++ x) = some (v, x) := by
  cases h with
  | str h =>
    have hs := tomlString_of h x
    obtain ⟨c, r, rfl, hc⟩ := string_head h
    rw [tomlVal]
    · rw [hs]; rfl
    · intro r' e
      cases e
      rcases hc with h | h <;> cases h
  | @seq t vs h =>
    show (tomlItems ((t ++ x).length + 1) (t ++ x)).map _ = _
    rw [tomlItems_of h x _ (by simp; omega)]
    rfl

theorem tomlVal_spec {s : Str} {v : NamesDoc} {x : Str} (h : tomlVal s = some (v, x)) : ∃ t, TomlValueIs t v ∧ s = t ++ x := by
  unfold tomlVal at h
  split at h
  · obtain ⟨⟨vs, y⟩, h1, h⟩ := Option.map_eq_some_iff.1 h
    cases h
    obtain ⟨t, ht, rfl⟩ := tomlItems_spec h1
    exact ⟨_, .seq ht, rfl⟩
  · obtain ⟨⟨vs, y⟩, h1, h⟩ := Option.map_eq_some_iff.1 h
    cases h
    obtain ⟨t, ht, rfl⟩ := tomlString_spec h1
    exact ⟨_, .str ht, rfl⟩

theorem value_noBlank {t x : Str} {v : NamesDoc} (h : TomlValueIs t v) : NoBlank (t ++ x) := by
  cases h with
  | str h => exact string_noBlank h
  | seq => rw [List.cons_append, noBlank_cons]; decide

/-! ### headers -/

theorem tomlPath_of {t : Str} {ks : List Str} (h : TomlPathIs t ks) (x : Str) : ∀ n, t.length ≤ n → tomlPath n (t ++ x) = some (ks, x) := by
  have first : ∀ {w s k : Str} {y : Str}, TomlBlank w → TomlKeyIs s k → KeyEnds y → ∀ n, tomlPath (n + 1) (w ++ s ++ y) =
      (match tomlSkip y with
      | ']' :: r => some ([k], r)
      | '.' :: r => (tomlPath n r).bind fun z => some (k :: z.1, z.2)
      | _ => none) := by
    intro w s k y hw hs hy n
    rw [tomlPath, List.append_assoc, tomlSkip_of hw (key_noBlank hs), tomlKey_of hs hy]
    rfl
  induction h with
  | @last w s v w' hw hs hw' =>
    intro n hn
    obtain ⟨n, rfl⟩ := Nat.exists_eq_succ_of_ne_zero (by simp at hn; omega : n ≠ 0)
    rw [show w ++ s ++ w' ++ [']'] ++ x = w ++ s ++ (w' ++ ']' :: x) by simp,
      first hw hs (blank_keyEnds hw' (by rw [← tomlBare_iff]; decide)), tomlSkip_of hw' (by rw [noBlank_cons]; decide)]
    rfl
  | @cons w s v w' t vs hw hs hw' ht ih =>
    intro n hn
    obtain ⟨n, rfl⟩ := Nat.exists_eq_succ_of_ne_zero (by simp at hn; omega : n ≠ 0)
    rw [show w ++ s ++ w' ++ '.' :: t ++ x = w ++ s ++ (w' ++ '.' :: (t ++ x)) by simp,
      first hw hs (blank_keyEnds hw' (by rw [← tomlBare_iff]; decide)), tomlSkip_of hw' (by rw [noBlank_cons]; decide)]
    show (tomlPath n (t ++ x)).bind _ = _
    rw [ih n (by simp at hn; omega)]
    rfl

theorem tomlPath_spec : ∀ {n : Nat} {s : Str} {ks : List Str} {x : Str}, tomlPath n s = some (ks, x) → ∃ t, TomlPathIs t ks ∧ s = t ++ x := by
  intro n
  induction n with
  | zero => intro s ks x h; cases h
  | succ n ih =>
    intro s ks x h
    obtain ⟨w, hw, he, -⟩ := tomlSkip_spec s
    rw [tomlPath] at h
    obtain ⟨⟨v, r⟩, h1, h⟩ := Option.bind_eq_some_iff.1 h
    obtain ⟨t, ht, e⟩ := tomlKey_spec h1
    obtain ⟨w', hw', he', -⟩ := tomlSkip_spec r
    dsimp only at h
    split at h
    · rename_i r' hr'
      cases h
      rw [hr'] at he'
      exact ⟨_, .last hw ht hw', by rw [he, e, he']; simp⟩
    · rename_i r' hr'
      obtain ⟨⟨us, y⟩, h2, h⟩ := Option.bind_eq_some_iff.1 h
      cases h
      obtain ⟨t', ht', rfl⟩ := ih h2
      rw [hr'] at he'
      exact ⟨_, .cons hw ht hw' ht', by rw [he, e, he']; simp⟩
    · cases h

/-! ### lines -/

theorem tomlEnd_iff (s : Str) : tomlEnd s = true ↔ TomlEndOk s := by
  constructor
  · intro h
    obtain ⟨w, hw, he, -⟩ := tomlSkip_spec s
    unfold tomlEnd at h
    split at h
    · rename_i e
      rw [e, List.append_nil] at he
      rw [he]
      exact .blank hw
    · rename_i c e
      rw [e] at he
      rw [he]
      refine .comment hw ?_
      intro x hx
      have := List.all_eq_true.1 h x hx
      rw [Bool.or_eq_true, tomlPlain_iff, beq_iff_eq] at this
      exact this
    · cases h
  · intro h
    cases h with
    | blank hw =>
      unfold tomlEnd
      have := tomlSkip_of hw noBlank_nil
      rw [List.append_nil] at this
      rw [this]
    | comment hw hc =>
      unfold tomlEnd
      rw [tomlSkip_of hw (by rw [noBlank_cons]; decide)]
      refine List.all_eq_true.2 fun x hx => ?_
      rw [Bool.or_eq_true, tomlPlain_iff, beq_iff_eq]
      exact hc x hx

theorem tomlEnd_skip (s : Str) : tomlEnd (tomlSkip s) = tomlEnd s := by
  obtain ⟨w, hw, he, hn⟩ := tomlSkip_spec s
  have : tomlSkip (tomlSkip s) = tomlSkip s := by simpa using tomlSkip_of (w := []) (by intro c h; cases h) hn
  unfold tomlEnd
  rw [this]

theorem tomlPair_of {k w' w'' t e : Str} {v : NamesDoc} (hw' : TomlBlank w') (hw'' : TomlBlank w'') (ht : TomlValueIs t v) (he : TomlEndOk e) :
    tomlPair k (w' ++ '=' :: (w'' ++ (t ++ e))) = some (.pair k v) := by
  unfold tomlPair
  rw [tomlSkip_of hw' (by rw [noBlank_cons]; decide)]
  show (tomlVal (tomlSkip (w'' ++ (t ++ e)))).bind _ = _
  rw [tomlSkip_of hw'' (value_noBlank ht), tomlVal_of ht]
  show (if tomlEnd e then _ else _) = _
  rw [if_pos ((tomlEnd_iff e).2 he)]

theorem tomlLine_of {l : Str} {y : TLine} (h : TomlLineIs l y) : tomlLine l = some y := by
  cases h with
  | skip h =>
    have := (tomlEnd_iff l).2 h
    rw [← tomlEnd_skip] at this
    unfold tomlLine
    split
    · rename_i r hr
      rw [hr] at this
      cases this
    · rw [if_pos this]
  | @header w p h e hw hp he =>
    unfold tomlLine
    rw [show w ++ '[' :: p ++ e = w ++ '[' :: (p ++ e) by simp, tomlSkip_of hw (by rw [noBlank_cons]; decide)]
    show (tomlPath ((p ++ e).length + 1) (p ++ e)).bind _ = _
    rw [tomlPath_of hp e _ (by simp; omega)]
    show (if tomlEnd e then _ else _) = _
    rw [if_pos ((tomlEnd_iff e).2 he)]
  | @pair w s k w' w'' t v e hw hs hw' hw'' ht he =>
    have hk := tomlKey_of hs (x := w' ++ '=' :: (w'' ++ (t ++ e))) (blank_keyEnds hw' (by rw [← tomlBare_iff]; decide))
    have hp := tomlPair_of (k := k) hw' hw'' ht he
    unfold tomlLine
    rw [show w ++ s ++ w' ++ '=' :: w'' ++ t ++ e = w ++ (s ++ (w' ++ '=' :: (w'' ++ (t ++ e)))) by simp, tomlSkip_of hw (key_noBlank hs)]
    obtain ⟨c, r, rfl, hc⟩ := key_head hs
    obtain ⟨n1, n2, n3, n4⟩ := key_first hc
    split
    · rename_i e'
      cases e'
      exact absurd rfl n3
    · have hne : tomlEnd (c :: r ++ (w' ++ '=' :: (w'' ++ (t ++ e)))) ≠ true := by
        intro h
        replace h := (tomlEnd_iff _).1 h
        generalize hz : c :: r ++ (w' ++ '=' :: (w'' ++ (t ++ e))) = z at h
        cases h with
        | blank hw =>
          have := hw c (by rw [← hz]; simp)
          tauto
        | @comment u d hu _ =>
          cases u with
          | nil => cases hz; exact n4 rfl
          | cons a u =>
            rw [List.cons_append, List.cons_append] at hz
            have ha := (List.cons.inj hz).1
            have := hu a (by simp)
            rw [← ha] at this
            tauto
      rw [if_neg hne]
      rw [hk]
      exact hp

theorem tomlLine_spec {l : Str} {y : TLine} (h : tomlLine l = some y) : TomlLineIs l y := by
  obtain ⟨w, hw, hl, -⟩ := tomlSkip_spec l
  unfold tomlLine at h
  split at h
  · rename_i r hr
    obtain ⟨⟨ks, x⟩, h1, h2⟩ := Option.bind_eq_some_iff.1 h
    clear h
    rename' h2 => h
    obtain ⟨t, ht, rfl⟩ := tomlPath_spec h1
    dsimp only at h
    split at h
    · rename_i hx
      cases h
      rw [hl, hr, show w ++ '[' :: (t ++ x) = w ++ '[' :: t ++ x by simp]
      exact .header hw ht ((tomlEnd_iff x).1 hx)
    · cases h
  · split at h
    · rename_i hx
      cases h
      rw [tomlEnd_skip] at hx
      exact .skip ((tomlEnd_iff l).1 hx)
    · obtain ⟨⟨k, r⟩, h1, h⟩ := Option.bind_eq_some_iff.1 h
      obtain ⟨t, ht, e⟩ := tomlKey_spec h1
      obtain ⟨w', hw', he', -⟩ := tomlSkip_spec r
      dsimp only at h
      unfold tomlPair at h
      split at h
      · rename_i r' hr'
        obtain ⟨⟨v, x⟩, h2, h⟩ := Option.bind_eq_some_iff.1 h
        obtain ⟨w'', hw'', he'', -⟩ := tomlSkip_spec r'
        obtain ⟨u, hu, e2⟩ := tomlVal_spec h2
        dsimp only at h
        split at h
        · rename_i hx
          cases h
          rw [hl, e, he', hr', he'', e2, show w ++ (t ++ (w' ++ '=' :: (w'' ++ (u ++ x)))) = w ++ t ++ w' ++ '=' :: w'' ++ u ++ x by simp]
          exact .pair hw ht hw' hw'' hu ((tomlEnd_iff x).1 hx)
        · cases h
      · cases h

theorem tomlLine_iff (l : Str) (y : TLine) : tomlLine l = some y ↔ TomlLineIs l y := ⟨tomlLine_spec, tomlLine_of⟩

/-! ### texts -/

theorem tomlFold_entries {a : List TLine} {es : TEntries} (h : TomlEntriesAre a es) (b : List TLine) : tomlFold (a ++ b) = (es ++ (tomlFold b).1, (tomlFold b).2) := by
  induction h with
  | nil => rfl
  | skip _ ih => exact ih
  | @pair k v ls es _ ih =>
    show ((k, v) :: (tomlFold (ls ++ b)).1, (tomlFold (ls ++ b)).2) = _
    rw [ih]
    rfl

theorem tomlFold_tables {b : List TLine} {ts : List (List Str × TEntries)} (h : TomlTablesAre b ts) : tomlFold b = ([], ts) := by
  induction h with
  | nil => rfl
  | @table h ls es ls' ts he _ ih =>
    show ([], (h, (tomlFold (ls ++ ls')).1) :: (tomlFold (ls ++ ls')).2) = _
    rw [tomlFold_entries he, ih]
    simp

theorem tomlFold_spec (ys : List TLine) : ∃ a b, ys = a ++ b ∧ TomlEntriesAre a (tomlFold ys).1 ∧ TomlTablesAre b (tomlFold ys).2 := by
  induction ys with
  | nil => exact ⟨[], [], rfl, .nil, .nil⟩
  | cons y ys ih =>
    obtain ⟨a, b, e, ha, hb⟩ := ih
    cases y with
    | skip => exact ⟨.skip :: a, b, by rw [e]; rfl, .skip ha, hb⟩
    | pair k v => exact ⟨.pair k v :: a, b, by rw [e]; rfl, .pair ha, hb⟩
    | header h =>
      refine ⟨[], .header h :: ys, rfl, .nil, ?_⟩
      show TomlTablesAre _ ((h, (tomlFold ys).1) :: (tomlFold ys).2)
      rw [show TLine.header h :: ys = TLine.header h :: a ++ b by rw [e]; rfl]
      exact .table ha hb

theorem tomlText_iff (s : Str) (root : TEntries) (ts : List (List Str × TEntries)) : tomlText s = some (root, ts) ↔ TomlTextIs s root ts := by
  unfold tomlText
  constructor
  · intro h
    obtain ⟨ys, h1, h⟩ := Option.map_eq_some_iff.1 h
    obtain ⟨a, b, e, ha, hb⟩ := tomlFold_spec ys
    rw [h] at ha hb
    obtain ⟨ls, h0, hn, rfl⟩ := exists_lines s
    rw [splitLf_join h0 hn] at h1
    exact ⟨ls, ys, a, b, h0, hn, rfl, (mapM_forall₂.1 h1).imp fun l y h => (tomlLine_iff l y).1 h, e, ha, hb⟩
  · rintro ⟨ls, ys, a, b, h0, h1, rfl, h2, rfl, ha, hb⟩
    rw [splitLf_join h0 h1, mapM_forall₂.2 (h2.imp fun l y h => (tomlLine_iff l y).2 h)]
    show some (tomlFold (a ++ b)) = _
    rw [tomlFold_entries ha, tomlFold_tables hb]
    simp

/-! ### entries -/

theorem lookup_iff {α β : Type} [BEq α] [LawfulBEq α] {l : List (α × β)} (h : (l.map (·.1)).Nodup) {k : α} {v : β} : l.lookup k = some v ↔ (k, v) ∈ l := by
  induction l with
  | nil => simp
  | cons x l ih =>
    obtain ⟨a, b⟩ := x
    rw [List.map_cons, List.nodup_cons] at h
    rw [List.lookup_cons]
    by_cases e : k = a
    · subst e
      simp only [beq_self_eq_true, Option.some.injEq, List.mem_cons, Prod.mk.injEq, true_and]
      constructor
      · rintro rfl; exact .inl rfl
      · rintro (rfl | hm)
        · rfl
        · exact absurd (List.mem_map.2 ⟨_, hm, rfl⟩) h.1
    · rw [show (k == a) = false by simpa using e]
      simp only [List.mem_cons, Prod.mk.injEq, e, false_and, false_or]
      exact ih h.2

theorem lookup_none_iff {α β : Type} [BEq α] [LawfulBEq α] {l : List (α × β)} (h : (l.map (·.1)).Nodup) {k : α} : l.lookup k = none ↔ ∀ v, (k, v) ∉ l := by
  cases e : l.lookup k with
  | none =>
    simp only [true_iff]
    intro v hv
    rw [(lookup_iff h).2 hv] at e
    cases e
  | some v =>
    simp only [reduceCtorEq, false_iff, not_forall, not_not]
    exact ⟨v, (lookup_iff h).1 e⟩

theorem tomlOpt_iff {es : TEntries} (h : (es.map (·.1)).Nodup) (k : Str) (o : Option Str) : tomlOpt (es.lookup k) = some o ↔ TomlMaybe es k o := by
  unfold TomlMaybe
  rw [← lookup_none_iff h]
  simp only [← lookup_iff h]
  cases e : es.lookup k with
  | none => simp [tomlOpt, eq_comm]
  | some v =>
    cases v with
    | str s => simp [tomlOpt, eq_comm]
    | seq l => simp [tomlOpt]

theorem tomlSeq_iff {es : TEntries} (h : (es.map (·.1)).Nodup) (k : Str) (l : List Str) : tomlSeq (es.lookup k) = some l ↔ (k, .seq l) ∈ es := by
  rw [← lookup_iff h]
  cases e : es.lookup k with
  | none => simp [tomlSeq]
  | some v =>
    cases v with
    | str s => simp [tomlSeq]
    | seq l => simp [tomlSeq]

theorem tomlArt_iff (es : TEntries) (d : ArtDoc) : tomlArt es = some d ↔ TomlArtIs es d := by
  unfold tomlArt
  by_cases hn : (es.map (·.1)).Nodup
  · rw [if_pos hn]
    have hp : ∀ o, es.lookup c!"partof" = o ↔ (∃ p, (c!"partof", p) ∈ es ∧ o = some p) ∨ ((∀ v, (c!"partof", v) ∉ es) ∧ o = none) := by
      intro o
      rw [← lookup_none_iff hn]
      simp only [← lookup_iff hn]
      cases e : es.lookup c!"partof" <;> simp [eq_comm]
    constructor
    · intro h
      obtain ⟨done, h1, h⟩ := Option.bind_eq_some_iff.1 h
      obtain ⟨text, h2, h⟩ := Option.bind_eq_some_iff.1 h
      cases h
      exact ⟨hn, (tomlOpt_iff hn _ _).1 h1, (tomlOpt_iff hn _ _).1 h2, (hp _).1 rfl⟩
    · rintro ⟨-, h1, h2, h3⟩
      rw [← tomlOpt_iff hn] at h1 h2
      show (tomlOpt (es.lookup c!"done")).bind _ = _
      rw [h1]
      show (tomlOpt (es.lookup c!"text")).bind _ = _
      rw [h2, (hp _).2 h3]
      rfl
  · rw [if_neg hn]
    simp only [reduceCtorEq, false_iff]
    exact fun h => hn h.once

theorem tomlArtTable_iff (t : List Str × TEntries) (x : Str × ArtDoc) : tomlArtTable t = some x ↔ t.1 = [x.1] ∧ TomlArtIs t.2 x.2 := by
  obtain ⟨h, es⟩ := t
  obtain ⟨k, d⟩ := x
  unfold tomlArtTable
  split
  · rename_i k' es' e
    cases e
    simp only [Option.map_eq_some_iff, Prod.mk.injEq, List.cons.injEq, and_true]
    constructor
    · rintro ⟨d', h1, rfl, rfl⟩
      exact ⟨rfl, (tomlArt_iff _ _).1 h1⟩
    · rintro ⟨rfl, h⟩
      exact ⟨d, (tomlArt_iff _ _).2 h, rfl, rfl⟩
  · rename_i hne
    simp only [reduceCtorEq, false_iff]
    rintro ⟨rfl, -⟩
    exact hne k es rfl

theorem tables_nodup {ts : List (List Str × TEntries)} {docs : List (Str × ArtDoc)} (h : List.Forall₂ (fun t d => t.1 = [d.1] ∧ TomlArtIs t.2 d.2) ts docs) :
    (ts.map (·.1)).Nodup ↔ (docs.map (·.1)).Nodup := by
  have e : ts.map (·.1) = (docs.map (·.1)).map fun k => [k] := by
    induction h with
    | nil => rfl
    | cons h _ ih => rw [List.map_cons, h.1, ih]; rfl
  rw [e]
  exact List.nodup_map_iff fun a b h => (List.cons.inj h).1

theorem tomlArts_iff (s : Str) (docs : List (Str × ArtDoc)) : tomlArts s = some docs ↔ TomlArtsText s docs := by
  constructor
  · intro h
    obtain ⟨⟨root, ts⟩, h1, h2⟩ := Option.bind_eq_some_iff.1 h
    clear h
    dsimp only at h2
    split at h2
    · rename_i hc
      obtain ⟨rfl, hn⟩ := hc
      have hf := (mapM_forall₂.1 h2).imp fun t d h => (tomlArtTable_iff t d).1 h
      exact ⟨ts, (tomlText_iff _ _ _).1 h1, (tables_nodup hf).1 hn, hf⟩
    · cases h2
  · rintro ⟨ts, h1, hn, hf⟩
    show (tomlText s).bind _ = _
    rw [(tomlText_iff _ _ _).2 h1]
    show (if _ then _ else _) = _
    rw [if_pos ⟨rfl, (tables_nodup hf).2 hn⟩]
    exact mapM_forall₂.2 (hf.imp fun t d h => (tomlArtTable_iff t d).2 h)

/-! ### the settings -/

theorem tomlMdName_iff (es : TEntries) (m : MdName) : tomlMdName es = some m ↔ TomlMdNameIs es m := by
  unfold tomlMdName TomlMdNameIs
  by_cases hn : (es.map (·.1)).Nodup
  · rw [if_pos hn]
    simp only [← lookup_iff hn, hn, true_and]
    cases e : es.lookup c!"type" with
    | none => simp
    | some t =>
      by_cases h1 : t = .str c!"default"
      · subst h1
        simp [eq_comm]
      by_cases h2 : t = .str c!"prefix"
      · subst h2
        cases e' : es.lookup c!"value" with
        | none => simp
        | some v => cases v <;> simp [eq_comm]
      simp [h1, h2]
  · rw [if_neg hn]
    simp [hn]

theorem tomlMdAttrs_iff (es : TEntries) (m : MdAttrs) : tomlMdAttrs es = some m ↔ TomlMdAttrsIs es m := by
  unfold tomlMdAttrs TomlMdAttrsIs
  by_cases hn : (es.map (·.1)).Nodup
  · rw [if_pos hn]
    simp only [← lookup_iff hn, ← tomlOpt_iff hn, hn, true_and]
    cases e : es.lookup c!"type" with
    | none => simp
    | some t =>
      by_cases h1 : t = .str c!"hashes"
      · subst h1
        rw [if_pos rfl]
        constructor
        · intro h; cases h; exact .inl ⟨rfl, rfl⟩
        · rintro (⟨-, rfl⟩ | ⟨p, h, -⟩)
          · rfl
          · exact absurd h (by decide)
      rw [if_neg (fun h => h1 (Option.some.inj h))]
      by_cases h2 : t = .str c!"code"
      · subst h2
        rw [if_pos rfl, Option.map_eq_some_iff]
        constructor
        · rintro ⟨p, hp, rfl⟩; exact .inr ⟨p, rfl, hp, rfl⟩
        · rintro (⟨h, -⟩ | ⟨p, -, hp, rfl⟩)
          · exact absurd h (by decide)
          · exact ⟨p, hp, rfl⟩
      rw [if_neg (fun h => h2 (Option.some.inj h))]
      simp [h1, h2]
  · rw [if_neg hn]
    simp [hn]

theorem tomlPart_iff {α : Type} {P : TEntries → α → Prop} {f : TEntries → Option α} (hf : ∀ es x, f es = some x ↔ P es x) {dflt : α} {d : TEntries}
    (hd : f d = some dflt) {ts : List (List Str × TEntries)} (hn : (ts.map (·.1)).Nodup) (h : List Str) (x : α) :
    f ((ts.lookup h).getD d) = some x ↔ TomlPart P dflt ts h x := by
  unfold TomlPart
  rw [← lookup_none_iff hn]
  simp only [← lookup_iff hn]
  cases e : ts.lookup h with
  | none => simp [hd, eq_comm]
  | some es => simp [hf]

theorem tomlSettings_iff (s : Str) (raw : SettingsRaw) : tomlSettings s = some raw ↔ TomlSettingsText s raw := by
  have hname := fun {ts : List (List Str × TEntries)} (hn : (ts.map (·.1)).Nodup) (x : MdName) =>
    tomlPart_iff (f := tomlMdName) (dflt := .default) (d := [(c!"type", .str c!"default")]) tomlMdName_iff (by decide) hn [c!"parse", c!"md_name"] x
  have hattrs := fun {ts : List (List Str × TEntries)} (hn : (ts.map (·.1)).Nodup) (x : MdAttrs) =>
    tomlPart_iff (f := tomlMdAttrs) (dflt := .hashes) (d := [(c!"type", .str c!"hashes")]) tomlMdAttrs_iff (by decide) hn [c!"format", c!"md_attrs"] x
  have hin : ∀ t : List Str, t ∈ settingsTables ↔ t = [c!"parse", c!"md_name"] ∨ t = [c!"format", c!"md_attrs"] := by
    intro t; unfold settingsTables; simp
  constructor
  · intro h
    obtain ⟨⟨root, ts⟩, h0, h'⟩ := Option.bind_eq_some_iff.1 h
    clear h
    dsimp only at h'
    split at h'
    · rename_i hc
      obtain ⟨c1, c2, c3, c4⟩ := hc
      obtain ⟨ap, h1, h'⟩ := Option.bind_eq_some_iff.1 h'
      obtain ⟨eap, h2, h'⟩ := Option.bind_eq_some_iff.1 h'
      obtain ⟨cp, h3, h'⟩ := Option.bind_eq_some_iff.1 h'
      obtain ⟨ecp, h4, h'⟩ := Option.bind_eq_some_iff.1 h'
      obtain ⟨url, h5, h'⟩ := Option.bind_eq_some_iff.1 h'
      obtain ⟨name, h6, h'⟩ := Option.bind_eq_some_iff.1 h'
      obtain ⟨attrs, h7, h'⟩ := Option.bind_eq_some_iff.1 h'
      cases h'
      exact ⟨root, ts, (tomlText_iff _ _ _).1 h0, c1, c3, c2, fun t ht => (hin _).1 (c4 t ht), (tomlSeq_iff c1 _ _).1 h1, (tomlSeq_iff c1 _ _).1 h2,
        (tomlSeq_iff c1 _ _).1 h3, (tomlSeq_iff c1 _ _).1 h4, (tomlOpt_iff c1 _ _).1 h5, (hname c3 _).1 h6, (hattrs c3 _).1 h7⟩
    · cases h'
  · rintro ⟨root, ts, h0, c1, c3, c2, c4, h1, h2, h3, h4, h5, h6, h7⟩
    obtain ⟨ap, eap, cp, ecp, url, name, attrs⟩ := raw
    show (tomlText s).bind _ = _
    rw [(tomlText_iff _ _ _).2 h0]
    show (if _ then _ else _) = _
    rw [if_pos ⟨c1, c2, c3, fun t ht => (hin _).2 (c4 t ht)⟩]
    show (tomlSeq (root.lookup c!"artifact_paths")).bind _ = _
    rw [(tomlSeq_iff c1 _ _).2 h1]
    show (tomlSeq (root.lookup c!"exclude_artifact_paths")).bind _ = _
    rw [(tomlSeq_iff c1 _ _).2 h2]
    show (tomlSeq (root.lookup c!"code_paths")).bind _ = _
    rw [(tomlSeq_iff c1 _ _).2 h3]
    show (tomlSeq (root.lookup c!"exclude_code_paths")).bind _ = _
    rw [(tomlSeq_iff c1 _ _).2 h4]
    show (tomlOpt (root.lookup c!"code_url")).bind _ = _
    rw [(tomlOpt_iff c1 _ _).2 h5]
    show (tomlMdName _).bind _ = _
    rw [(hname c3 _).2 h6]
    show (tomlMdAttrs _).bind _ = _
    rw [(hattrs c3 _).2 h7]
    rfl

/-! ### what is written -/

theorem hexUp_of {n : Nat} (h : n < 16) : HexDigit (hexUp n) n := by
  have : ∀ n < 16, HexDigit (hexUp n) n := by
    intro n hn
    refine hexVal_spec ?_
    revert n
    decide
  exact this n h

theorem tomlChar_text {c : Char} (h : c.toNat ≠ 0x1f ∧ c.toNat ≠ 0x7f) : TomlBasicChar (tomlChar c) c := by
  have hb : ∀ n, c.toNat = n → c = Char.ofNat n := by
    rintro n rfl
    exact char_eq_ofNat c
  unfold tomlChar
  split_ifs with h1 h2 h3 h4 h5 h6 h7 h8
  · rw [hb 8 h1]; exact .short (by decide)
  · subst h2; exact .short (n := 9) (by decide)
  · subst h3; exact .short (n := 10) (by decide)
  · rw [hb 12 h4]; exact .short (by decide)
  · subst h5; exact .short (n := 13) (by decide)
  · subst h6; exact .short (n := 0x22) (by decide)
  · subst h7; exact .short (n := 0x5c) (by decide)
  · refine .hex (e := 'u') (k := 4) (s := ['0', '0', hexUp (c.toNat / 16), hexUp (c.toNat % 16)]) (by decide) ?_ rfl
    have z : HexDigit '0' 0 := hexVal_spec (by decide)
    have h4 := HexIs.snoc (HexIs.snoc (HexIs.snoc (HexIs.snoc .nil z) z) (hexUp_of (n := c.toNat / 16) (by omega))) (hexUp_of (n := c.toNat % 16) (by omega))
    have e : 16 * (16 * (16 * (16 * 0 + 0) + 0) + c.toNat / 16) + c.toNat % 16 = c.toNat := by omega
    rw [e] at h4
    exact h4
  · exact .itself ⟨by omega, h.2⟩ h6 h7

theorem tomlQuoted_text {s : Str} (h : TomlKept s) : TomlStringIs (tomlQuoted s) s := by
  refine .basic ?_
  induction s with
  | nil => exact .nil
  | cons c s ih => exact .cons (tomlChar_text (h c (by simp))) (ih fun d hd => h d (by simp [hd]))

/-! ### control characters never stand in a TOML text -/

/-- A tab or a character that is no control character. -/
def Visible (c : Char) : Prop := c = '\t' ∨ TomlPlain c

instance (c : Char) : Decidable (Visible c) := by unfold Visible TomlPlain; infer_instance

theorem bare_visible {c : Char} (h : TomlBare c) : Visible c := by
  have key : ∀ {a b : Nat}, 32 ≤ a → b < 127 → a ≤ c.toNat → c.toNat ≤ b → Visible c := fun h1 h2 h3 h4 => .inr ⟨by omega, by omega⟩
  rcases h with ⟨h1, h2⟩ | ⟨h1, h2⟩ | ⟨h1, h2⟩ | rfl | rfl
  · exact key (a := 97) (b := 122) (by omega) (by omega) h1 h2
  · exact key (a := 65) (b := 90) (by omega) (by omega) h1 h2
  · exact key (a := 48) (b := 57) (by omega) (by omega) h1 h2
  · decide
  · decide

theorem hex_visible {s : Str} {n : Nat} (h : HexIs s n) : ∀ c ∈ s, Visible c := by
  induction h with
  | nil => simp
  | snoc _ hd ih =>
    intro c hc
    rcases List.mem_append.1 hc with hc | hc
    · exact ih c hc
    · rw [List.mem_singleton.1 hc]
      have := hexVal_of hd
      unfold hexVal at this
      split_ifs at this with h1 h2 h3
      · exact bare_visible (.inr (.inr (.inl h1)))
      · exact bare_visible (.inl ⟨h2.1, le_trans h2.2 (by decide)⟩)
      · exact bare_visible (.inr (.inl ⟨h3.1, le_trans h3.2 (by decide)⟩))

theorem string_visible {s v : Str} (h : TomlStringIs s v) : ∀ c ∈ s, Visible c := by
  cases h with
  | basic hi =>
    have : ∀ {i t}, TomlBasicChars i t → ∀ c ∈ i, Visible c := by
      intro i t h
      induction h with
      | nil => simp
      | cons hs _ ih =>
        intro c hc
        rcases List.mem_append.1 hc with hc | hc
        · cases hs with
          | itself h => rw [List.mem_singleton.1 hc]; exact .inr h
          | @short e n h =>
            have hv : ∀ x ∈ [('b', 8), ('t', 9), ('n', 10), ('f', 12), ('r', 13), ('"', 0x22), ('\\', 0x5c)], Visible x.1 := by decide
            rcases List.mem_cons.1 hc with rfl | hc
            · decide
            · rw [List.mem_singleton.1 hc]; exact hv _ h
          | @hex e k u _ h hu _ =>
            have hv : ∀ x ∈ [('u', 4), ('U', 8)], Visible x.1 := by decide
            rcases List.mem_cons.1 hc with rfl | hc
            · decide
            rcases List.mem_cons.1 hc with rfl | hc
            · exact hv _ h
            · exact hex_visible hu c hc
        · exact ih c hc
    intro c hc
    simp only [List.cons_append, List.mem_cons, List.mem_append, List.not_mem_nil, or_false] at hc
    rcases hc with rfl | hc | rfl
    · decide
    · exact this hi c hc
    · decide
  | literal hv =>
    intro c hc
    simp only [List.cons_append, List.mem_cons, List.mem_append, List.not_mem_nil, or_false] at hc
    rcases hc with rfl | hc | rfl
    · decide
    · exact .inr (hv c hc).1
    · decide

theorem blank_visible {w : Str} (h : TomlBlank w) : ∀ c ∈ w, Visible c := by
  intro c hc
  rcases h c hc with rfl | rfl <;> decide

theorem key_visible {s k : Str} (h : TomlKeyIs s k) : ∀ c ∈ s, Visible c := by
  cases h with
  | bare _ hb => exact fun c hc => bare_visible (hb c hc)
  | quoted h => exact string_visible h

theorem visible_append {a b : Str} (ha : ∀ c ∈ a, Visible c) (hb : ∀ c ∈ b, Visible c) : ∀ c ∈ a ++ b, Visible c := by
  intro c hc
  rcases List.mem_append.1 hc with h | h
  · exact ha c h
  · exact hb c h

theorem visible_cons {a : Char} {b : Str} (ha : Visible a) (hb : ∀ c ∈ b, Visible c) : ∀ c ∈ a :: b, Visible c := by
  intro c hc
  rcases List.mem_cons.1 hc with rfl | h
  · exact ha
  · exact hb c h

theorem items_visible {t : Str} {vs : List Str} (h : TomlItemsAre t vs) : ∀ c ∈ t, Visible c := by
  induction h with
  | nil hw => exact visible_append (blank_visible hw) (by decide)
  | last hw hs hw' => exact visible_append (visible_append (visible_append (blank_visible hw) (string_visible hs)) (blank_visible hw')) (by decide)
  | cons hw hs hw' _ ih =>
    exact visible_append (visible_append (visible_append (blank_visible hw) (string_visible hs)) (blank_visible hw')) (visible_cons (by decide) ih)

theorem path_visible {t : Str} {ks : List Str} (h : TomlPathIs t ks) : ∀ c ∈ t, Visible c := by
  induction h with
  | last hw hs hw' => exact visible_append (visible_append (visible_append (blank_visible hw) (key_visible hs)) (blank_visible hw')) (by decide)
  | cons hw hs hw' _ ih =>
    exact visible_append (visible_append (visible_append (blank_visible hw) (key_visible hs)) (blank_visible hw')) (visible_cons (by decide) ih)

theorem end_visible {e : Str} (h : TomlEndOk e) : ∀ c ∈ e, Visible c := by
  cases h with
  | blank hw => exact blank_visible hw
  | comment hw hc => exact visible_append (blank_visible hw) (visible_cons (by decide) hc)

theorem line_visible {l : Str} {y : TLine} (h : TomlLineIs l y) : ∀ c ∈ l, Visible c := by
  cases h with
  | skip h => exact end_visible h
  | header hw hp he => exact visible_append (visible_append (blank_visible hw) (visible_cons (by decide) (path_visible hp))) (end_visible he)
  | pair hw hs hw' hw'' ht he =>
    refine visible_append (visible_append (visible_append (visible_append (visible_append (blank_visible hw) (key_visible hs)) (blank_visible hw'))
      (visible_cons (by decide) (blank_visible hw''))) ?_) (end_visible he)
    cases ht with
    | str h => exact string_visible h
    | seq h => exact visible_cons (by decide) (items_visible h)

theorem text_visible {s : Str} {root : TEntries} {ts : List (List Str × TEntries)} (h : TomlTextIs s root ts) : ∀ c ∈ s, c = '\n' ∨ Visible c := by
  obtain ⟨ls, ys, a, b, h0, hn, rfl, hf, -⟩ := h
  clear hn a b
  induction hf with
  | nil => exact absurd rfl h0
  | @cons l y ls ys hl hf ih =>
    intro c hc
    by_cases e : ls = []
    · subst e
      rw [show joinLines [l] = l by simp [joinLines]] at hc
      exact .inr (line_visible hl c hc)
    · rw [joinLines_cons _ e] at hc
      rcases List.mem_append.1 hc with hc | hc
      · exact .inr (line_visible hl c hc)
      rcases List.mem_cons.1 hc with rfl | hc
      · exact .inl rfl
      · exact ih e c hc

theorem quoted_raw {s : Str} {c : Char} (hc : c ∈ s) (h : c.toNat = 0x1f ∨ c.toNat = 0x7f) : c ∈ tomlQuoted s := by
  have e : tomlChar c = [c] := by
    have hne : ∀ d : Char, d.toNat ≠ 0x1f ∧ d.toNat ≠ 0x7f → c ≠ d := by rintro d hd rfl; tauto
    unfold tomlChar
    rw [if_neg (by omega), if_neg (hne _ (by decide)), if_neg (hne _ (by decide)), if_neg (by omega), if_neg (hne _ (by decide)), if_neg (hne _ (by decide)),
      if_neg (hne _ (by decide)), if_neg (by omega)]
  unfold tomlQuoted
  simp only [List.cons_append, List.mem_cons, List.mem_append, List.mem_flatMap]
  exact .inr (.inl ⟨c, hc, by rw [e]; simp⟩)

theorem not_visible {c : Char} (h : c.toNat = 0x1f ∨ c.toNat = 0x7f) : ¬ (c = '\n' ∨ Visible c) := by
  rintro (rfl | rfl | ⟨h1, h2⟩)
  · revert h; decide
  · revert h; decide
  · omega

end Art
