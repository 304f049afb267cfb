import Verif.Spec.Address
import Mathlib.Data.List.TakeWhile

/-!
# Lemmas: patterns for addresses
-/

namespace Art
namespace Url

variable {S : Formats} {file line : Str}

/-- After a closing brace within an unfinished field nothing is accepted. -/
theorem scan_stuck (l : Str) : ∀ (out t : Str), scan S file line ⟨out, some ('}' :: t), false⟩ l = none := by
  induction l with
  | nil => intro out t; simp [scan]
  | cons c l ih =>
    intro out t
    unfold scan scanChar
    by_cases h1 : c = '{'
    · simp [h1]
    by_cases h2 : c = '}'
    · subst h2
      have hk : ('}' :: t).takeWhile (· ≠ ':') = '}' :: t.takeWhile (· ≠ ':') := by simp
      have : formatOne S file line ('}' :: t) = none := by
        have hl : lookup file line ('}' :: t.takeWhile (· ≠ ':')) = none := by simp [lookup]
        unfold formatOne
        simp only [hk, hl]
        split <;> rfl
      simp [this]
    · simp only [if_neg h1, if_neg h2, Bool.false_eq_true, if_false, List.cons_append]
      exact ih _ _

/-- Within a field. -/
theorem scan_field (l : Str) : ∀ {out t o : Str}, scan S file line ⟨out, some t, false⟩ l = some o →
    (t = [] ∧ ∃ r, l = '{' :: r ∧ scan S file line ⟨out ++ ['{'], none, false⟩ r = some o) ∨
    ∃ body r v, l = body ++ '}' :: r ∧ '{' ∉ body ∧ '}' ∉ body ∧ formatOne S file line (t ++ body) = some v ∧ scan S file line ⟨out ++ v, none, false⟩ r = some o := by
  induction l with
  | nil => intro out t o h; simp [scan] at h
  | cons c l ih =>
    intro out t o h
    unfold scan scanChar at h
    by_cases h1 : c = '{'
    · subst h1
      cases t with
      | nil => exact .inl ⟨rfl, l, rfl, by simpa using h⟩
      | cons a t => simp at h
    by_cases h2 : c = '}'
    · subst h2
      simp only [Char.reduceEq, if_false, if_true, Bool.false_eq_true] at h
      cases hf : formatOne S file line t with
      | none => simp [hf] at h
      | some v =>
        simp only [hf, Option.map_some] at h
        exact .inr ⟨[], l, v, rfl, by simp, by simp, by simpa using hf, h⟩
    · simp only [if_neg h1, if_neg h2, Bool.false_eq_true, if_false] at h
      rcases ih h with ⟨ht, _⟩ | ⟨body, r, v, rfl, hb1, hb2, hv, hs⟩
      · simp at ht
      · refine .inr ⟨c :: body, r, v, rfl, ?_, ?_, by simpa using hv, hs⟩
        · simp only [List.mem_cons, not_or]; exact ⟨fun e => h1 e.symm, hb1⟩
        · simp only [List.mem_cons, not_or]; exact ⟨fun e => h2 e.symm, hb2⟩

/-- After a closing brace. -/
theorem scan_close (k : Nat) : ∀ {l : Str}, l.length ≤ k → ∀ {out o : Str}, scan S file line ⟨out, none, true⟩ l = some o →
    ∃ n r, l = (List.replicate n c!"{{").flatten ++ '}' :: r ∧ scan S file line ⟨out ++ (List.replicate n '{' ++ c!"}"), none, false⟩ r = some o := by
  induction k with
  | zero =>
    intro l hl out o h
    rw [List.length_eq_zero_iff.1 (Nat.le_zero.1 hl)] at h
    simp [scan] at h
  | succ k ih =>
    intro l hl out o h
    cases l with
    | nil => simp [scan] at h
    | cons c l =>
      unfold scan scanChar at h
      by_cases h1 : c = '{'
      · subst h1
        simp only [if_true] at h
        cases l with
        | nil => simp [scan] at h
        | cons d l =>
          unfold scan scanChar at h
          by_cases h3 : d = '{'
          · subst h3
            simp only [if_true] at h
            obtain ⟨n, r, rfl, hs⟩ := ih (by simp only [List.length_cons] at hl; omega) h
            refine ⟨n + 1, r, by simp [List.replicate_succ], ?_⟩
            simpa [List.replicate_succ] using hs
          by_cases h4 : d = '}'
          · subst h4
            simp only [Char.reduceEq, if_false, if_true, Option.map_some, List.nil_append] at h
            rw [scan_stuck] at h
            cases h
          · simp [h3, h4] at h
      by_cases h2 : c = '}'
      · subst h2
        simp only [Char.reduceEq, if_false, if_true, Option.map_none] at h
        exact ⟨0, l, rfl, by simpa using h⟩
      · simp [h1, h2] at h

theorem lookup_some {key v : Str} (h : lookup file line key = some v) : ∃ x : Value, key = x.name ∧ v = x.text file line := by
  unfold lookup at h
  split at h
  · rename_i e
    exact ⟨.file, e, (Option.some.inj h).symm⟩
  · split at h
    · rename_i e
      exact ⟨.line, e, (Option.some.inj h).symm⟩
    · cases h

theorem lookup_name (x : Value) : lookup file line x.name = some (x.text file line) := by
  cases x <;> rfl

/-- The text between braces. -/
theorem formatOne_some {t v : Str} (hb1 : '{' ∉ t) (hb2 : '}' ∉ t) (h : formatOne S file line t = some v) :
    ∃ p : Piece, '{' :: t ++ ['}'] = p.src ∧ p.Writes S file line v := by
  unfold formatOne at h
  simp only at h
  split at h
  · cases h
  · split at h
    · cases h
    · rename_i w hw
      obtain ⟨x, hk, rfl⟩ := lookup_some hw
      have ht := List.takeWhile_append_dropWhile (p := fun c => decide (c ≠ ':')) (l := t)
      rw [hk] at ht
      cases hd : t.dropWhile (fun c => decide (c ≠ ':')) with
      | nil =>
        rw [hd] at ht h
        simp only [List.tail_nil, if_true, Option.some.injEq] at h
        subst h
        refine ⟨.hole x, ?_, .hole⟩
        rw [← ht]; simp [Piece.src]
      | cons c s =>
        have hc : c = ':' := by
          have := List.head?_dropWhile_not (fun c => decide (c ≠ ':')) t
          rw [hd] at this
          simpa using this
        subst hc
        rw [hd] at ht h
        change (if s = [] then some (x.text file line) else (S s).map (· (x.text file line))) = some v at h
        by_cases e : s = []
        · subst e
          simp only [if_true, Option.some.injEq] at h
          subst h
          refine ⟨.fmt x [], ?_, .bare⟩
          rw [← ht]; simp [Piece.src]
        · rw [if_neg e] at h
          obtain ⟨f, hf, rfl⟩ := Option.map_eq_some_iff.1 h
          refine ⟨.fmt x s, ?_, .fmt e ?_ ?_ hf⟩
          · rw [← ht]; simp [Piece.src]
          · intro hm; exact hb1 (by rw [← ht]; simp [hm])
          · intro hm; exact hb2 (by rw [← ht]; simp [hm])

theorem scan_sound (k : Nat) : ∀ {l : Str}, l.length ≤ k → ∀ {out o : Str}, scan S file line ⟨out, none, false⟩ l = some o → ∃ o', o = out ++ o' ∧ Address S l file line o' := by
  induction k with
  | zero =>
    intro l hl out o h
    rw [List.length_eq_zero_iff.1 (Nat.le_zero.1 hl)] at h ⊢
    simp only [scan, Option.isSome_none, Bool.or_self, Bool.false_eq_true, if_false, Option.some.injEq] at h
    exact ⟨[], by simp [h], [], [], rfl, .nil, rfl⟩
  | succ k ih =>
    intro l hl out o h
    have step : ∀ {p : Piece} {v r : Str}, l = p.src ++ r → p.src ≠ [] → p.Writes S file line v → scan S file line ⟨out ++ v, none, false⟩ r = some o →
        ∃ o', o = out ++ o' ∧ Address S l file line o' := by
      rintro p v r rfl hne hp hs
      have hlen : r.length ≤ k := by
        have : 0 < p.src.length := List.length_pos_iff.2 hne
        simp only [List.length_append] at hl
        omega
      obtain ⟨o', rfl, ps, os, rfl, hf, rfl⟩ := ih hlen hs
      exact ⟨v ++ os.flatten, by simp, p :: ps, v :: os, by simp, .cons hp hf, by simp⟩
    cases l with
    | nil =>
      simp only [scan, Option.isSome_none, Bool.or_self, Bool.false_eq_true, if_false, Option.some.injEq] at h
      exact ⟨[], by simp [h], [], [], rfl, .nil, rfl⟩
    | cons c l =>
      unfold scan scanChar at h
      by_cases h1 : c = '{'
      · subst h1
        simp only [if_true] at h
        rcases scan_field l h with ⟨_, r, rfl, hs⟩ | ⟨body, r, v, rfl, hb1, hb2, hv, hs⟩
        · exact step (p := .brace) rfl (by simp [Piece.src]) .brace hs
        · obtain ⟨p, e, hp⟩ := formatOne_some hb1 hb2 (by simpa using hv)
          exact step (p := p) (by rw [← e]; simp) (by rw [← e]; simp) hp hs
      by_cases h2 : c = '}'
      · subst h2
        simp only [Char.reduceEq, if_false, if_true, Bool.false_eq_true] at h
        obtain ⟨n, r, rfl, hs⟩ := scan_close l.length (Nat.le_refl _) h
        exact step (p := .close n) (by simp [Piece.src]) (by simp [Piece.src]) .close hs
      · simp only [if_neg h1, if_neg h2, Bool.false_eq_true, if_false] at h
        exact step (p := .plain c) rfl (by simp [Piece.src]) (.plain h1 h2) h

theorem scan_text (t : Str) (h1 : '{' ∉ t) (h2 : '}' ∉ t) : ∀ (out u r : Str), scan S file line ⟨out, some u, false⟩ (t ++ r) = scan S file line ⟨out, some (u ++ t), false⟩ r := by
  induction t with
  | nil => intro out u r; simp
  | cons c t ih =>
    intro out u r
    simp only [List.mem_cons, not_or] at h1 h2
    rw [List.cons_append, scan]
    unfold scanChar
    simp only [if_neg (Ne.symm h1.1), if_neg (Ne.symm h2.1), Bool.false_eq_true, if_false]
    rw [ih h1.2 h2.2]
    simp

theorem scan_end {t v : Str} (h1 : '{' ∉ t) (h2 : '}' ∉ t) (h : formatOne S file line t = some v) (out r : Str) :
    scan S file line ⟨out, none, false⟩ ('{' :: (t ++ '}' :: r)) = scan S file line ⟨out ++ v, none, false⟩ r := by
  rw [scan]
  unfold scanChar
  simp only [if_true]
  rw [scan_text t h1 h2, scan]
  unfold scanChar
  simp [h]

theorem scan_braces (n : Nat) : ∀ (out r : Str), scan S file line ⟨out, none, true⟩ ((List.replicate n c!"{{").flatten ++ r) =
    scan S file line ⟨out ++ List.replicate n '{', none, true⟩ r := by
  induction n with
  | zero => intro out r; simp
  | succ n ih =>
    intro out r
    rw [List.replicate_succ, List.flatten_cons, List.append_assoc]
    show scan S file line _ ('{' :: '{' :: ((List.replicate n c!"{{").flatten ++ r)) = _
    rw [scan]
    unfold scanChar
    simp only [if_true]
    rw [scan]
    unfold scanChar
    simp only [if_true]
    rw [ih]
    simp [List.replicate_succ]

theorem name_plain (v : Value) : '{' ∉ v.name ∧ '}' ∉ v.name ∧ ':' ∉ v.name ∧ v.name ≠ [] := by
  cases v <;> decide

theorem scan_piece {p : Piece} {v : Str} (h : p.Writes S file line v) (out r : Str) :
    scan S file line ⟨out, none, false⟩ (p.src ++ r) = scan S file line ⟨out ++ v, none, false⟩ r := by
  cases h with
  | @plain c h1 h2 =>
    show scan S file line _ (c :: r) = _
    rw [scan]
    unfold scanChar
    simp [h1, h2]
  | brace =>
    show scan S file line _ ('{' :: '{' :: r) = _
    rw [scan]
    unfold scanChar
    simp only [if_true]
    rw [scan]
    unfold scanChar
    simp
  | @close n =>
    have e : (Piece.close n).src ++ r = '}' :: ((List.replicate n c!"{{").flatten ++ '}' :: r) := by simp [Piece.src]
    rw [e, scan]
    unfold scanChar
    simp only [Char.reduceEq, if_false, if_true, Bool.false_eq_true]
    rw [scan_braces, scan]
    unfold scanChar
    simp
  | @hole x =>
    obtain ⟨h1, h2, h3, h4⟩ := name_plain x
    have e : (Piece.hole x).src ++ r = '{' :: (x.name ++ '}' :: r) := by simp [Piece.src]
    rw [e]
    refine scan_end h1 h2 ?_ _ _
    have ht : x.name.takeWhile (fun c => decide (c ≠ ':')) = x.name := List.takeWhile_eq_self_iff.2 fun c hc => by simp; rintro rfl; exact h3 hc
    have hd : x.name.dropWhile (fun c => decide (c ≠ ':')) = [] := List.dropWhile_eq_nil_iff.2 fun c hc => by simp; rintro rfl; exact h3 hc
    unfold formatOne
    simp only [ht, hd, if_neg h4, lookup_name, List.tail_nil, if_true]
  | @bare x =>
    obtain ⟨h1, h2, h3, h4⟩ := name_plain x
    have e : (Piece.fmt x []).src ++ r = '{' :: ((x.name ++ c!":") ++ '}' :: r) := by simp [Piece.src]
    rw [e]
    refine scan_end (by simpa using h1) (by simpa using h2) ?_ _ _
    have ha : ∀ c ∈ x.name, decide (c ≠ ':') = true := fun c hc => by simp; rintro rfl; exact h3 hc
    have ht : (x.name ++ c!":").takeWhile (fun c => decide (c ≠ ':')) = x.name := by rw [List.takeWhile_append_of_pos ha]; simp
    have hd : (x.name ++ c!":").dropWhile (fun c => decide (c ≠ ':')) = c!":" := by rw [List.dropWhile_append_of_pos ha]; simp
    unfold formatOne
    simp only [ht, hd, if_neg h4, lookup_name, List.tail_cons, if_true]
  | @fmt x s f hs hs1 hs2 hf =>
    obtain ⟨h1, h2, h3, h4⟩ := name_plain x
    have e : (Piece.fmt x s).src ++ r = '{' :: ((x.name ++ ':' :: s) ++ '}' :: r) := by simp [Piece.src]
    rw [e]
    refine scan_end (by simp [h1, hs1]) (by simp [h2, hs2]) ?_ _ _
    have ha : ∀ c ∈ x.name, decide (c ≠ ':') = true := fun c hc => by simp; rintro rfl; exact h3 hc
    have ht : (x.name ++ ':' :: s).takeWhile (fun c => decide (c ≠ ':')) = x.name := by rw [List.takeWhile_append_of_pos ha]; simp
    have hd : (x.name ++ ':' :: s).dropWhile (fun c => decide (c ≠ ':')) = ':' :: s := by rw [List.dropWhile_append_of_pos ha]; simp
    unfold formatOne
    simp only [ht, hd, if_neg h4, lookup_name, List.tail_cons, if_neg hs, hf, Option.map_some]

theorem scan_complete {ps : List Piece} {os : List Str} (h : List.Forall₂ (Piece.Writes S file line) ps os) :
    ∀ out, scan S file line ⟨out, none, false⟩ (ps.map Piece.src).flatten = some (out ++ os.flatten) := by
  induction h with
  | nil => intro out; simp [scan]
  | @cons p v ps os hp _ ih =>
    intro out
    rw [List.map_cons, List.flatten_cons, scan_piece hp, ih]
    simp

end Url
end Art
