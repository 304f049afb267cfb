import Verif.Spec.Cli
import Mathlib.Data.List.Nodup

/-!
# Lemmas about reading the words of a command line
-/

namespace Art
namespace Cli
open Spec

/-- What is asked of the declarations of a sub-command. -/
structure AppDef.Wf (a : AppDef) : Prop where
  ids : (a.opts.map OptDef.id).Nodup
  longs : (a.opts.map OptDef.long).Nodup
  shorts : ∀ o ∈ a.opts, ∀ p ∈ a.opts, o.short ≠ none → o.short = p.short → o = p
  named : ∀ o ∈ a.opts, o.long ≠ [] ∧ '=' ∉ o.long ∧ o.long.head? ≠ some '-' ∧ o.short ≠ some '-'
  numbers : ∀ o ∈ a.opts, o.number = true → o.takes = true

theorem apps_wf : ∀ a ∈ apps, a.Wf := by
  have h : ∀ a ∈ apps, (a.opts.map OptDef.id).Nodup ∧ (a.opts.map OptDef.long).Nodup ∧ (∀ o ∈ a.opts, ∀ p ∈ a.opts, o.short ≠ none → o.short = p.short → o = p) ∧
      (∀ o ∈ a.opts, o.long ≠ [] ∧ '=' ∉ o.long ∧ o.long.head? ≠ some '-' ∧ o.short ≠ some '-') ∧ (∀ o ∈ a.opts, o.number = true → o.takes = true) := by
    decide +kernel
  intro a ha
  obtain ⟨h1, h2, h3, h4, h5⟩ := h a ha
  exact ⟨h1, h2, h3, h4, h5⟩

theorem by_id {a : AppDef} (wf : a.Wf) {o p : OptDef} (ho : o ∈ a.opts) (hp : p ∈ a.opts) (h : o.id = p.id) : o = p :=
  List.inj_on_of_nodup_map wf.ids ho hp h

theorem by_long {a : AppDef} (wf : a.Wf) {o p : OptDef} (ho : o ∈ a.opts) (hp : p ∈ a.opts) (h : o.long = p.long) : o = p :=
  List.inj_on_of_nodup_map wf.longs ho hp h

theorem by_short {a : AppDef} (wf : a.Wf) {o p : OptDef} {c : Char} (ho : o ∈ a.opts) (hp : p ∈ a.opts) (h : o.short = some c) (h' : p.short = some c) : o = p :=
  wf.shorts o ho p hp (by rw [h]; simp) (by rw [h, h'])

theorem find_only {l : List OptDef} {f : OptDef → Bool} {o : OptDef} (ho : o ∈ l) (hf : f o = true) (h : ∀ p ∈ l, f p = true → p = o) : l.find? f = some o := by
  cases hx : l.find? f with
  | none => exact absurd hf (by simpa using List.find?_eq_none.1 hx o ho)
  | some p => rw [h p (List.mem_of_find?_eq_some hx) (by simpa using List.find?_some hx)]

theorem find_long_takes {a : AppDef} (wf : a.Wf) {o : OptDef} (ho : o ∈ a.opts) (ht : o.takes = true) :
    a.opts.find? (fun p => p.takes && p.long == o.long) = some o := by
  refine find_only ho (by simp [ht]) ?_
  intro p hp h
  simp only [Bool.and_eq_true, beq_iff_eq] at h
  exact by_long wf hp ho h.2

theorem find_long_flag {a : AppDef} (wf : a.Wf) {o : OptDef} (ho : o ∈ a.opts) (ht : o.takes = false) :
    a.opts.find? (fun p => p.takes && p.long == o.long) = none ∧ a.opts.find? (fun p => !p.takes && p.long == o.long) = some o := by
  constructor
  · rw [List.find?_eq_none]
    intro p hp h
    simp only [Bool.and_eq_true, beq_iff_eq] at h
    rw [by_long wf hp ho h.2, ht] at h
    simp at h
  · refine find_only ho (by simp [ht]) ?_
    intro p hp h
    simp only [Bool.and_eq_true, beq_iff_eq] at h
    exact by_long wf hp ho h.2

theorem find_short_takes {a : AppDef} (wf : a.Wf) {o : OptDef} {c : Char} (ho : o ∈ a.opts) (ht : o.takes = true) (hc : o.short = some c) :
    a.opts.find? (fun p => p.takes && p.short == some c) = some o := by
  refine find_only ho (by simp [ht, hc]) ?_
  intro p hp h
  simp only [Bool.and_eq_true, beq_iff_eq] at h
  exact by_short wf hp ho h.2 hc

theorem find_short_flag {a : AppDef} (wf : a.Wf) {o : OptDef} {c : Char} (ho : o ∈ a.opts) (ht : o.takes = false) (hc : o.short = some c) :
    a.opts.find? (fun p => p.takes && p.short == some c) = none ∧ a.opts.find? (fun p => !p.takes && p.short == some c) = some o := by
  constructor
  · rw [List.find?_eq_none]
    intro p hp h
    simp only [Bool.and_eq_true, beq_iff_eq] at h
    rw [by_short wf hp ho h.2 hc, ht] at h
    simp at h
  · refine find_only ho (by simp [ht, hc]) ?_
    intro p hp h
    simp only [Bool.and_eq_true, beq_iff_eq] at h
    exact by_short wf hp ho h.2 hc

/-! ## texts -/

theorem trimC_replicate (c : Char) (n : Nat) {s : Str} (h : s.head? ≠ some c) : trimC c (List.replicate n c ++ s) = s := by
  unfold trimC
  induction n with
  | zero =>
    cases s with
    | nil => rfl
    | cons d s => rw [List.replicate_zero, List.nil_append, List.dropWhile_cons_of_neg]; simpa using h
  | succ n ih => simpa [List.replicate_succ] using ih

theorem trimC_spec (c : Char) (w : Str) : (trimC c w).head? ≠ some c ∧ ∃ n, w = List.replicate n c ++ trimC c w := by
  unfold trimC
  induction w with
  | nil => exact ⟨by simp, 0, rfl⟩
  | cons d w ih =>
    by_cases h : d = c
    · subst h
      obtain ⟨h1, n, h2⟩ := ih
      rw [List.dropWhile_cons_of_pos (by simp)]
      exact ⟨h1, n + 1, by rw [List.replicate_succ, List.cons_append, ← h2]⟩
    · rw [List.dropWhile_cons_of_neg (by simpa using h)]
      exact ⟨by simpa using h, 0, rfl⟩

theorem after_trim (t : Str) : After t (trimC '=' t) := by
  obtain ⟨h1, n, h2⟩ := trimC_spec '=' t
  exact ⟨n, h2, h1⟩

theorem trim_after {t v : Str} (h : After t v) : trimC '=' t = v := by
  obtain ⟨n, rfl, hv⟩ := h
  exact trimC_replicate _ n hv

theorem takeWhile_ne_append {n t : Str} (hn : '=' ∉ n) (ht : t = [] ∨ t.head? = some '=') :
    (n ++ t).takeWhile (· ≠ '=') = n ∧ (n ++ t).dropWhile (· ≠ '=') = t := by
  induction n with
  | nil =>
    rcases ht with rfl | ht
    · exact ⟨rfl, rfl⟩
    · cases t with
      | nil => exact ⟨rfl, rfl⟩
      | cons c t =>
        simp only [List.head?_cons, Option.some.injEq] at ht
        subst ht
        exact ⟨rfl, rfl⟩
  | cons c n ih =>
    simp only [List.mem_cons, not_or] at hn
    obtain ⟨h1, h2⟩ := ih hn.2
    have hc : c ≠ '=' := fun e => hn.1 e.symm
    constructor
    · rw [List.cons_append, List.takeWhile_cons_of_pos (by simpa using hc), h1]
    · rw [List.cons_append, List.dropWhile_cons_of_pos (by simpa using hc), h2]

theorem splitEq_none {n : Str} (hn : '=' ∉ n) : splitEq n = (n, none) := by
  obtain ⟨h1, h2⟩ := takeWhile_ne_append hn (t := []) (.inl rfl)
  rw [List.append_nil] at h1 h2
  unfold splitEq
  rw [h1, h2]

theorem splitEq_some {n : Str} (hn : '=' ∉ n) (v : Str) : splitEq (n ++ '=' :: v) = (n, some v) := by
  obtain ⟨h1, h2⟩ := takeWhile_ne_append hn (t := '=' :: v) (.inr rfl)
  unfold splitEq
  rw [h1, h2]

theorem splitEq_spec (s : Str) : ((splitEq s).2 = none → s = (splitEq s).1) ∧ ∀ v, (splitEq s).2 = some v → s = (splitEq s).1 ++ '=' :: v := by
  have h := List.takeWhile_append_dropWhile (p := fun c : Char => decide (c ≠ '=')) (l := s)
  unfold splitEq
  cases hd : s.dropWhile (fun c => decide (c ≠ '=')) with
  | nil =>
    rw [hd, List.append_nil] at h
    simp only
    exact ⟨fun _ => h.symm, fun _ h => by cases h⟩
  | cons c v =>
    have hc : c = '=' := by
      have := List.head?_dropWhile_not (fun c : Char => decide (c ≠ '=')) s
      rw [hd] at this
      simpa using this
    subst hc
    rw [hd] at h
    simp only
    refine ⟨fun e => (by cases e), ?_⟩
    intro u e
    cases e
    exact h.symm

theorem dashed_trim {w n : Str} (h : Dashed w n) (hn : n.head? ≠ some '-') : trimC '-' w = n := by
  obtain ⟨k, rfl⟩ := h
  exact trimC_replicate '-' (k + 2) hn

theorem dashed_of_trim {w : Str} (h : c!"--".isPrefixOf w = true) : Dashed w (trimC '-' w) := by
  obtain ⟨h1, n, h2⟩ := trimC_spec '-' w
  match w, h with
  | '-' :: '-' :: r, _ =>
    match n, h2 with
    | 0, h2 => exact absurd (by rw [List.replicate_zero, List.nil_append] at h2; rw [← h2]; rfl) h1
    | 1, h2 =>
      have e : '-' :: r = trimC '-' ('-' :: '-' :: r) := by simpa using h2
      exact absurd (by rw [← e]; rfl) h1
    | n + 2, h2 => exact ⟨n, h2⟩
  | [], h => simp [List.isPrefixOf] at h
  | [c], h => simp [List.isPrefixOf] at h
  | c :: d :: r, h =>
    have h : '-' = c ∧ '-' = d := by simpa [List.isPrefixOf] using h
    obtain ⟨rfl, rfl⟩ := h
    match n, h2 with
    | 0, h2 => exact absurd (by rw [List.replicate_zero, List.nil_append] at h2; rw [← h2]; rfl) h1
    | 1, h2 =>
      have e : '-' :: r = trimC '-' ('-' :: '-' :: r) := by simpa using h2
      exact absurd (by rw [← e]; rfl) h1
    | n + 2, h2 => exact ⟨n, h2⟩

theorem dashed_prefix {w n : Str} (h : Dashed w n) : c!"--".isPrefixOf w = true := by
  obtain ⟨k, rfl⟩ := h
  rfl

theorem dashed_new {w n : Str} (h : Dashed w n) : isNew w = true := by
  obtain ⟨k, rfl⟩ := h
  rfl

theorem word_iff (w : Str) : Word w ↔ isNew w = false := by
  unfold Word
  match w with
  | [] => simp [isNew]
  | [c] =>
    simp only [List.cons.injEq, and_true, List.head?_cons, ne_eq, Option.some.injEq]
    by_cases h : c = '-'
    · simp [h, isNew]
    · simp [h, isNew]
  | c :: d :: r =>
    by_cases h : c = '-'
    · subst h; simp [isNew]
    · have : isNew (c :: d :: r) = false := by
        unfold isNew
        split
        · rename_i e; cases e; exact absurd rfl h
        · rfl
      simp [h, this]

/-! ## one word -/

/-- Flags one after the other. -/
def pushFlags (st : Seen) (fs : List OptDef) : Seen := fs.foldl addFlag st

theorem pushFlags_eq (st : Seen) (fs : List OptDef) :
    pushFlags st fs = { st with given := (fs.map fun o => (o.id, none)).reverse ++ st.given, wait := if fs = [] then st.wait else none } := by
  unfold pushFlags
  induction fs generalizing st with
  | nil => rfl
  | cons o fs ih =>
    rw [List.foldl_cons, ih]
    cases fs <;> simp [addFlag]

theorem shortWord_letters {a : AppDef} (wf : a.Wf) {fs : List OptDef} {cs : Str} (h : Letters a fs cs) (st : Seen) (r : Str) :
    shortWord a st (cs ++ r) = shortWord a (pushFlags st fs) r := by
  unfold Letters at h
  induction h generalizing st with
  | nil => rfl
  | cons h _ ih =>
    obtain ⟨h1, h2⟩ := find_short_flag wf h.1 h.2.1 h.2.2
    rw [List.cons_append, shortWord, h1, h2]
    exact ih _

theorem shortWord_spec {a : AppDef} : ∀ (cs : Str) (st st' : Seen), shortWord a st cs = .ok st' →
    (∃ fs, Letters a fs cs ∧ st' = pushFlags st fs) ∨
    ∃ fs cs' o c t, cs = cs' ++ c :: t ∧ Letters a fs cs' ∧ o ∈ a.opts ∧ o.takes = true ∧ o.short = some c ∧
      st' = addOpt (pushFlags st fs) o (if t = [] then none else some t)
  | [], st, st', h => by
    simp only [shortWord, Outcome.ok.injEq] at h
    exact .inl ⟨[], .nil, h.symm⟩
  | c :: r, st, st', h => by
    unfold shortWord at h
    cases h1 : a.opts.find? (fun o => o.takes && o.short == some c) with
    | some o =>
      rw [h1] at h
      simp only [Outcome.ok.injEq] at h
      have hp := List.find?_some h1
      simp only [Bool.and_eq_true, beq_iff_eq] at hp
      exact .inr ⟨[], [], o, c, r, rfl, .nil, List.mem_of_find?_eq_some h1, hp.1, hp.2, h.symm⟩
    | none =>
      rw [h1] at h
      cases h2 : a.opts.find? (fun o => !o.takes && o.short == some c) with
      | none =>
        rw [h2] at h
        simp only at h
        split at h <;> cases h
      | some o =>
        rw [h2] at h
        have hp := List.find?_some h2
        simp only [Bool.and_eq_true, Bool.not_eq_true', beq_iff_eq] at hp
        have ho := List.mem_of_find?_eq_some h2
        rcases shortWord_spec r _ _ h with ⟨fs, hl, rfl⟩ | ⟨fs, cs', p, d, t, rfl, hl, h3, h4, h5, rfl⟩
        · exact .inl ⟨o :: fs, .cons ⟨ho, hp.1, hp.2⟩ hl, rfl⟩
        · exact .inr ⟨o :: fs, c :: cs', p, d, t, rfl, .cons ⟨ho, hp.1, hp.2⟩ hl, h3, h4, h5, rfl⟩

theorem longWord_spec {a : AppDef} {w : Str} {st st' : Seen} (hw : c!"--".isPrefixOf w = true) (h : longWord a st w = .ok st') :
    (∃ o t, o ∈ a.opts ∧ o.takes = false ∧ Dashed w (o.long ++ t) ∧ (t = [] ∨ t.head? = some '=') ∧ st' = addFlag st o) ∨
    (∃ o t, o ∈ a.opts ∧ o.takes = true ∧ Dashed w (o.long ++ '=' :: t) ∧ st' = addOpt st o (some t)) ∨
    (∃ o, o ∈ a.opts ∧ o.takes = true ∧ Dashed w o.long ∧ st' = addOpt st o none) := by
  have hd := dashed_of_trim hw
  obtain ⟨s1, s2⟩ := splitEq_spec (trimC '-' w)
  unfold longWord at h
  cases hs : splitEq (trimC '-' w) with
  | mk n v =>
    rw [hs] at h s1 s2
    simp only at h s1 s2
    cases h1 : a.opts.find? (fun o => o.takes && o.long == n) with
    | some o =>
      rw [h1] at h
      simp only [Outcome.ok.injEq] at h
      have hp := List.find?_some h1
      simp only [Bool.and_eq_true, beq_iff_eq] at hp
      have ho := List.mem_of_find?_eq_some h1
      cases v with
      | none =>
        rw [s1 rfl, ← hp.2] at hd
        exact .inr (.inr ⟨o, ho, hp.1, hd, h.symm⟩)
      | some v =>
        rw [s2 v rfl, ← hp.2] at hd
        exact .inr (.inl ⟨o, v, ho, hp.1, hd, h.symm⟩)
    | none =>
      rw [h1] at h
      cases h2 : a.opts.find? (fun o => !o.takes && o.long == n) with
      | none =>
        rw [h2] at h
        simp only at h
        split at h <;> cases h
      | some o =>
        rw [h2] at h
        simp only [Outcome.ok.injEq] at h
        have hp := List.find?_some h2
        simp only [Bool.and_eq_true, Bool.not_eq_true', beq_iff_eq] at hp
        have ho := List.mem_of_find?_eq_some h2
        cases v with
        | none =>
          rw [s1 rfl, ← hp.2] at hd
          exact .inl ⟨o, [], ho, hp.1, by rwa [List.append_nil], .inl rfl, h.symm⟩
        | some v =>
          rw [s2 v rfl, ← hp.2] at hd
          exact .inl ⟨o, '=' :: v, ho, hp.1, hd, .inr rfl, h.symm⟩

theorem longWord_flag {a : AppDef} (wf : a.Wf) {o : OptDef} {w t : Str} (ho : o ∈ a.opts) (ht : o.takes = false) (hd : Dashed w (o.long ++ t))
    (h : t = [] ∨ t.head? = some '=') (st : Seen) : longWord a st w = .ok (addFlag st o) := by
  obtain ⟨n1, n2, n3, _⟩ := wf.named o ho
  have hn : (o.long ++ t).head? ≠ some '-' := by cases hl : o.long with
    | nil => exact absurd hl n1
    | cons c r => rw [hl] at n3; exact n3
  obtain ⟨f1, f2⟩ := find_long_flag wf ho ht
  unfold longWord
  rw [dashed_trim hd hn]
  have e : (splitEq (o.long ++ t)).1 = o.long := (takeWhile_ne_append n2 h).1
  cases hs : splitEq (o.long ++ t) with
  | mk n v =>
    rw [hs] at e
    simp only at e
    subst e
    simp only [f1, f2]

theorem longWord_eq {a : AppDef} (wf : a.Wf) {o : OptDef} {w t : Str} (ho : o ∈ a.opts) (ht : o.takes = true) (hd : Dashed w (o.long ++ '=' :: t)) (st : Seen) :
    longWord a st w = .ok (addOpt st o (some t)) := by
  obtain ⟨n1, n2, n3, _⟩ := wf.named o ho
  have hn : (o.long ++ '=' :: t).head? ≠ some '-' := by cases hl : o.long with
    | nil => exact absurd hl n1
    | cons c r => rw [hl] at n3; exact n3
  unfold longWord
  rw [dashed_trim hd hn, splitEq_some n2]
  simp only [find_long_takes wf ho ht]

theorem longWord_sep {a : AppDef} (wf : a.Wf) {o : OptDef} {w : Str} (ho : o ∈ a.opts) (ht : o.takes = true) (hd : Dashed w o.long) (st : Seen) :
    longWord a st w = .ok (addOpt st o none) := by
  obtain ⟨_, n2, n3, _⟩ := wf.named o ho
  unfold longWord
  rw [dashed_trim hd n3, splitEq_none n2]
  simp only [find_long_takes wf ho ht]

/-! ## all words -/

/-- The options and flags among the parts, as clap stores them. -/
def optsOf : List Part → List (Str × Option Str)
  | [] => []
  | .flag o :: l => (o.id, none) :: optsOf l
  | .value o v :: l => (o.id, some v) :: optsOf l
  | .arg _ :: l => optsOf l

theorem optsOf_append (l l' : List Part) : optsOf (l ++ l') = optsOf l ++ optsOf l' := by
  induction l with
  | nil => rfl
  | cons p l ih => cases p <;> simp [optsOf, ih]

theorem optsOf_flags (fs : List OptDef) : optsOf (fs.map .flag) = fs.map fun o => (o.id, none) := by
  induction fs with
  | nil => rfl
  | cons o l ih => simp [optsOf, ih]

theorem optsOf_args (l : List Str) : optsOf (l.map .arg) = [] := by
  induction l with
  | nil => rfl
  | cons o l ih => simp [optsOf, ih]

theorem argsOf_append (l l' : List Part) : argsOf (l ++ l') = argsOf l ++ argsOf l' := by
  induction l with
  | nil => rfl
  | cons p l ih => cases p <;> simp [argsOf, ih]

theorem argsOf_flags (fs : List OptDef) : argsOf (fs.map .flag) = [] := by
  induction fs with
  | nil => rfl
  | cons o l ih => simp [argsOf, ih]

theorem argsOf_args (l : List Str) : argsOf (l.map .arg) = l := by
  induction l with
  | nil => rfl
  | cons o l ih => simp [argsOf, ih]

/-- An option without its value. -/
def Lacks (a : AppDef) (g : List (Str × Option Str)) : Prop := ∃ o ∈ a.opts, o.takes = true ∧ (o.id, none) ∈ g

theorem lacks_iff (a : AppDef) (m : Matches) : lacksValue a m = true ↔ Lacks a m.given := by
  unfold lacksValue Lacks
  simp only [List.any_eq_true, Bool.and_eq_true, beq_iff_eq, Prod.exists]
  constructor
  · rintro ⟨id, v, h, h1, o, ho, ht, rfl⟩
    cases v with
    | some v => cases h1
    | none => exact ⟨o, ho, ht, h⟩
  · rintro ⟨o, ho, ht, h⟩
    exact ⟨o.id, none, h, rfl, o, ho, ht, rfl⟩

/-- What stays for ever. -/
def Seen.kept (st : Seen) : List (Str × Option Str) := if st.wait.isSome then st.given.tail else st.given

theorem kept_addOpt (st : Seen) (o : OptDef) (v : Option Str) : ∀ x ∈ st.given, x ∈ (addOpt st o v).kept := by
  intro x hx
  cases v with
  | some v => exact List.mem_cons_of_mem _ hx
  | none => exact hx

theorem kept_addFlag (st : Seen) (o : OptDef) : ∀ x ∈ st.given, x ∈ (addFlag st o).kept := fun _ hx => List.mem_cons_of_mem _ hx

theorem given_pushFlags (st : Seen) (fs : List OptDef) : ∀ x ∈ st.given, x ∈ (pushFlags st fs).given := by
  intro x hx
  rw [pushFlags_eq]
  exact List.mem_append_right _ hx

theorem kept_new {a : AppDef} {st st' : Seen} {w : Str} (hr : st.rest = false) (hw : w ≠ c!"--") (hn : isNew w = true) (h : oneWord a st w = .ok st') :
    ∀ x ∈ st.given, x ∈ st'.kept := by
  intro x hx
  unfold oneWord at h
  rw [hr, if_neg (by simp), if_neg hw, if_pos hn] at h
  by_cases hp : c!"--".isPrefixOf w = true
  · rw [if_pos hp] at h
    rcases longWord_spec hp h with ⟨o, t, -, -, -, -, rfl⟩ | ⟨o, t, -, -, -, rfl⟩ | ⟨o, -, -, -, rfl⟩
    · exact kept_addFlag _ _ _ hx
    · exact kept_addOpt _ _ _ _ hx
    · exact kept_addOpt _ _ _ _ hx
  · rw [if_neg hp] at h
    rcases shortWord_spec _ _ _ h with ⟨fs, hl, rfl⟩ | ⟨fs, cs, o, c, t, -, -, -, -, -, rfl⟩
    · have hne : fs ≠ [] := by
        rintro rfl
        cases w with
        | nil => cases hn
        | cons d w =>
          cases w with
          | nil => revert hn; unfold isNew; split <;> simp_all
          | cons e w => cases hl
      unfold Seen.kept
      rw [pushFlags_eq, if_neg hne]
      exact List.mem_append_right _ hx
    · exact kept_addOpt _ _ _ _ (given_pushFlags _ _ _ hx)

theorem kept_one {a : AppDef} {st st' : Seen} {w : Str} (h : oneWord a st w = .ok st') : ∀ x ∈ st.kept, x ∈ st'.kept := by
  intro x hx
  have hpos : ∀ {st st' : Seen}, addPos a st w = .ok st' → x ∈ st.kept → x ∈ st'.kept := by
    intro st st' h hx
    unfold addPos at h
    split at h
    · cases h; exact hx
    · cases h
  have hg : x ∈ st.given := by
    unfold Seen.kept at hx
    split at hx
    · exact List.mem_of_mem_tail hx
    · exact hx
  by_cases hr : st.rest = true
  · unfold oneWord at h
    rw [if_pos hr] at h
    exact hpos h hx
  have hr : st.rest = false := by simpa using hr
  by_cases hw : w = c!"--"
  · unfold oneWord at h
    rw [hr, if_neg (by simp), if_pos hw] at h
    cases h
    exact hx
  by_cases hn : isNew w = true
  · exact kept_new hr hw hn h x hg
  unfold oneWord at h
  rw [hr, if_neg (by simp), if_neg hw, if_neg hn] at h
  cases hwt : st.wait with
  | none =>
    rw [hwt] at h
    exact hpos h hx
  | some id =>
    rw [hwt] at h
    cases h
    unfold Seen.kept at hx
    rw [hwt] at hx
    exact List.mem_cons_of_mem _ hx

theorem kept_words {a : AppDef} : ∀ (l : List Str) (st st' : Seen), words a st l = .ok st' → ∀ x ∈ st.kept, x ∈ st'.kept
  | [], st, st', h, x, hx => by cases h; exact hx
  | w :: l, st, st', h, x, hx => by
    unfold words at h
    cases h1 : oneWord a st w with
    | ok s =>
      rw [h1] at h
      exact kept_words l s st' h x (kept_one h1 x hx)
    | _ => rw [h1] at h; cases h

theorem kept_given (st : Seen) : ∀ x ∈ st.kept, x ∈ st.given := by
  intro x hx
  unfold Seen.kept at hx
  split at hx
  · exact List.mem_of_mem_tail hx
  · exact hx

theorem words_rest {a : AppDef} : ∀ (l : List Str) (st st' : Seen), st.rest = true → words a st l = .ok st' → st'.given = st.given ∧ st'.pos = st.pos ++ l
  | [], st, st', _, h => by cases h; simp
  | w :: l, st, st', hr, h => by
    unfold words oneWord addPos at h
    rw [if_pos hr] at h
    split at h
    · rename_i s h1
      split at h1
      · cases h1
        obtain ⟨h2, h3⟩ := words_rest l _ _ (by exact hr) h
        exact ⟨h2, by rw [h3]; simp⟩
      · cases h1
    · rename_i h1
      exact absurd h (h1 _)

/-- What the rest of the words does to a state. -/
def Reads (a : AppDef) (l : List Str) (g : List (Str × Option Str)) (pos : List Str) (st' : Seen) : Prop :=
  (∃ ps, Line a ps l ∧ st'.given = (optsOf ps).reverse ++ g ∧ st'.pos = pos ++ argsOf ps) ∨ Lacks a st'.given

theorem words_sound {a : AppDef} : ∀ (l : List Str) (st st' : Seen), words a st l = .ok st' → st.rest = false →
    (st.wait = none → Reads a l st.given st.pos st') ∧
    (∀ o g, o ∈ a.opts → o.takes = true → st.wait = some o.id → st.given = (o.id, none) :: g →
      (∃ v l', l = v :: l' ∧ Word v ∧ Reads a l' ((o.id, some v) :: g) st.pos st') ∨ Lacks a st'.given)
  | [], st, st', h, hr => by
    cases h
    exact ⟨fun _ => .inl ⟨[], .nil, rfl, by simp [argsOf]⟩, fun o g ho ht _ hg => .inr ⟨o, ho, ht, by rw [hg]; simp⟩⟩
  | w :: l, st, st', h, hr => by
    have hfull := h
    unfold words at h
    cases h1 : oneWord a st w with
    | info => rw [h1] at h; cases h
    | refused => rw [h1] at h; cases h
    | dangling => rw [h1] at h; cases h
    | ok s =>
      rw [h1] at h
      simp only at h
      have h1' := h1
      unfold oneWord at h1
      rw [hr, if_neg (by simp)] at h1
      by_cases hw : w = c!"--"
      · rw [if_pos hw] at h1
        cases h1
        obtain ⟨h2, h3⟩ := words_rest l _ _ rfl h
        simp only at h2 h3
        refine ⟨fun _ => .inl ⟨l.map .arg, by rw [hw]; exact .rest l, by rw [h2, optsOf_args]; rfl, by rw [h3, argsOf_args]⟩, fun o g ho ht _ hg => .inr ⟨o, ho, ht, ?_⟩⟩
        rw [h2, hg]; simp
      rw [if_neg hw] at h1
      by_cases hn : isNew w = true
      · rw [if_pos hn] at h1
        refine ⟨fun hwt => ?_, fun o g ho ht _ hg => .inr ⟨o, ho, ht, kept_given _ _ (kept_words l _ _ h _ (kept_new hr hw hn h1' _ (by rw [hg]; simp)))⟩⟩
        by_cases hp : c!"--".isPrefixOf w = true
        · rw [if_pos hp] at h1
          rcases longWord_spec hp h1 with ⟨o, t, ho, ht, hd, he, rfl⟩ | ⟨o, t, ho, ht, hd, rfl⟩ | ⟨o, ho, ht, hd, rfl⟩
          · rcases (words_sound l _ _ h hr).1 rfl with ⟨ps, hl, e1, e2⟩ | hl
            · exact .inl ⟨_, .long ho ht hd he hl, by rw [e1]; simp [optsOf, addFlag], e2⟩
            · exact .inr hl
          · rcases (words_sound l _ _ h hr).1 rfl with ⟨ps, hl, e1, e2⟩ | hl
            · exact .inl ⟨_, .longEq ho ht hd (after_trim t) hl, by rw [e1]; simp [optsOf, addOpt], e2⟩
            · exact .inr hl
          · rcases (words_sound l _ _ h hr).2 o st.given ho ht rfl rfl with ⟨v, l', rfl, hv, hx⟩ | hl
            · rcases hx with ⟨ps, hl, e1, e2⟩ | hl
              · exact .inl ⟨_, .longSep ho ht hd hv hl, by rw [e1]; simp [optsOf], e2⟩
              · exact .inr hl
            · exact .inr hl
        · rw [if_neg hp] at h1
          have hcons : w = '-' :: w.tail ∧ w.tail ≠ [] := by
            revert hn
            unfold isNew
            split
            · intro _; exact ⟨rfl, by simp⟩
            · intro h; cases h
          rcases shortWord_spec _ _ _ h1 with ⟨fs, hl, rfl⟩ | ⟨fs, cs, o, c, t, hc, hl, ho, ht, hs, rfl⟩
          · have hne : fs ≠ [] := by
              rintro rfl
              unfold Letters at hl
              rw [List.forall₂_nil_left_iff] at hl
              exact hcons.2 hl
            rw [pushFlags_eq, if_neg hne] at h
            rcases (words_sound l _ _ h hr).1 rfl with ⟨ps, hll, e1, e2⟩ | hll
            · refine .inl ⟨_, by rw [hcons.1]; exact .short hne hl hll, ?_, ?_⟩
              · rw [e1, optsOf_append, optsOf_flags]; simp
              · rw [e2, argsOf_append, argsOf_flags]; rfl
            · exact .inr hll
          · rw [pushFlags_eq] at h
            by_cases hte : t = []
            · subst hte
              rw [if_pos rfl] at h
              rcases (words_sound l _ _ h hr).2 o _ ho ht rfl rfl with ⟨v, l', rfl, hv, hx⟩ | hll
              · rcases hx with ⟨ps, hll, e1, e2⟩ | hll
                · refine .inl ⟨_, by rw [hcons.1, hc]; exact .shortSep hl ho ht hs hv hll, ?_, ?_⟩
                  · rw [e1, optsOf_append, optsOf_flags]; simp [optsOf]
                  · rw [e2, argsOf_append, argsOf_flags]; rfl
                · exact .inr hll
              · exact .inr hll
            · rw [if_neg hte] at h
              rcases (words_sound l _ _ h hr).1 rfl with ⟨ps, hll, e1, e2⟩ | hll
              · refine .inl ⟨_, by rw [hcons.1, hc]; exact .shortEq hl ho ht hs hte (after_trim t) hll, ?_, ?_⟩
                · rw [e1, optsOf_append, optsOf_flags]; simp [optsOf, addOpt]
                · rw [e2, argsOf_append, argsOf_flags]; rfl
              · exact .inr hll
      · rw [if_neg hn] at h1
        have hword : Word w := (word_iff w).2 (by simpa using hn)
        constructor
        · intro hwt
          rw [hwt] at h1
          simp only [addPos] at h1
          split at h1
          · cases h1
            rcases (words_sound l _ _ h hr).1 hwt with ⟨ps, hl, e1, e2⟩ | hl
            · exact .inl ⟨_, .arg hword hl, e1, by rw [e2]; simp [argsOf]⟩
            · exact .inr hl
          · cases h1
        · intro o g ho ht hwt hg
          rw [hwt] at h1
          cases h1
          left
          refine ⟨w, l, rfl, hword, ?_⟩
          have := (words_sound l _ _ h rfl).1 rfl
          rw [hg] at this
          exact this

theorem words_cons {a : AppDef} {st s : Seen} {w : Str} {l : List Str} (h : oneWord a st w = .ok s) : words a st (w :: l) = words a s l := by
  rw [words, h]

theorem words_args {a : AppDef} : ∀ (l : List Str) (st : Seen), st.rest = true → st.pos.length + l.length ≤ a.pos.length →
    words a st l = .ok { st with pos := st.pos ++ l }
  | [], st, _, _ => by simp [words]
  | w :: l, st, hr, hl => by
    simp only [List.length_cons] at hl
    have h1 : oneWord a st w = .ok { st with pos := st.pos ++ [w] } := by
      unfold oneWord addPos
      rw [if_pos hr, if_pos (by omega)]
    rw [words_cons h1, words_args l _ (by exact hr) (by simp only [List.length_append, List.length_singleton]; omega)]
    simp

theorem one_long {a : AppDef} {st : Seen} {w n : Str} (hr : st.rest = false) (hd : Dashed w n) (hn : n ≠ []) : oneWord a st w = longWord a st w := by
  unfold oneWord
  rw [hr, if_neg (by simp), if_neg, if_pos (dashed_new hd), if_pos (dashed_prefix hd)]
  obtain ⟨k, rfl⟩ := hd
  intro e
  have e : List.replicate k '-' ++ n = [] := by simpa using e
  simp only [List.append_eq_nil_iff] at e
  exact hn e.2

theorem one_short {a : AppDef} {st : Seen} {c : Char} {r : Str} (hr : st.rest = false) (hc : c ≠ '-') : oneWord a st ('-' :: c :: r) = shortWord a st (c :: r) := by
  unfold oneWord
  have hp : ¬ c!"--".isPrefixOf ('-' :: c :: r) = true := by
    simp only [List.isPrefixOf, Bool.and_eq_true, beq_iff_eq, not_and]
    intro _ h
    exact absurd h.symm hc
  rw [hr, if_neg (by simp), if_neg, if_pos (by rfl), if_neg hp]
  · rfl
  · intro e
    have e : c = '-' ∧ r = [] := by simpa using e
    exact hc e.1

theorem one_value {a : AppDef} {st : Seen} {v id : Str} (hr : st.rest = false) (hv : Word v) (hw : st.wait = some id) :
    oneWord a st v = .ok { st with given := (id, some v) :: st.given.tail, wait := none } := by
  have hn := (word_iff v).1 hv
  unfold oneWord
  rw [hr, if_neg (by simp), if_neg, if_neg (by simp [hn]), hw]
  rintro rfl
  cases hn

theorem letters_head {a : AppDef} (wf : a.Wf) {fs : List OptDef} {cs : Str} (h : Letters a fs cs) (hne : fs ≠ []) : ∃ c r, cs = c :: r ∧ c ≠ '-' := by
  cases h with
  | nil => exact absurd rfl hne
  | cons h _ => exact ⟨_, _, rfl, fun e => (wf.named _ h.1).2.2.2 (by rw [h.2.2, e])⟩

theorem words_more {a : AppDef} : ∀ (l : List Str) (st : Seen), st.rest = true → st.pos.length ≤ a.pos.length → a.pos.length < st.pos.length + l.length →
    words a st l = .refused
  | [], st, _, h, h' => by simp only [List.length_nil] at h'; omega
  | w :: l, st, hr, h, h' => by
    simp only [List.length_cons] at h'
    by_cases hlt : st.pos.length < a.pos.length
    · have h1 : oneWord a st w = .ok { st with pos := st.pos ++ [w] } := by
        unfold oneWord addPos
        rw [if_pos hr, if_pos hlt]
      rw [words_cons h1]
      exact words_more l _ hr (by simp only [List.length_append, List.length_singleton]; omega) (by simp only [List.length_append, List.length_singleton]; omega)
    · have h1 : oneWord a st w = .refused := by
        unfold oneWord addPos
        rw [if_pos hr, if_neg hlt]
      rw [words, h1]

/-- What reading the words of a line does to a state. -/
def Taken (a : AppDef) (ps : List Part) (l : List Str) (st : Seen) : Prop :=
  (st.pos.length + (argsOf ps).length ≤ a.pos.length →
    ∃ st', words a st l = .ok st' ∧ st'.given = (optsOf ps).reverse ++ st.given ∧ st'.pos = st.pos ++ argsOf ps) ∧
  (a.pos.length < st.pos.length + (argsOf ps).length → words a st l = .refused)

theorem taken_step {a : AppDef} {ps qs : List Part} {l l' : List Str} {st st1 : Seen} (h : words a st l = words a st1 l') (hp : st1.pos = st.pos) (ha : argsOf ps = argsOf qs)
    (hg : (optsOf qs).reverse ++ st1.given = (optsOf ps).reverse ++ st.given) (ih : Taken a qs l' st1) : Taken a ps l st := by
  unfold Taken at *
  rw [h, ha, ← hg, ← hp]
  exact ih

theorem words_complete {a : AppDef} (wf : a.Wf) {ps : List Part} {l : List Str} (h : Line a ps l) : ∀ (st : Seen), st.rest = false → st.wait = none →
    st.pos.length ≤ a.pos.length → Taken a ps l st := by
  induction h with
  | nil => exact fun st _ _ hle => ⟨fun _ => ⟨st, rfl, rfl, by simp [argsOf]⟩, fun h => by simp only [argsOf, List.length_nil] at h; omega⟩
  | rest l =>
    intro st hr hw hle
    have h1 : oneWord a st ['-', '-'] = .ok { st with rest := true } := by
      unfold oneWord
      rw [hr, if_neg (by simp), if_pos rfl]
    unfold Taken
    rw [argsOf_args, optsOf_args, words_cons h1]
    exact ⟨fun hl => ⟨_, words_args l _ rfl hl, rfl, rfl⟩, fun hl => words_more l _ rfl hle hl⟩
  | @arg w ps ws hword _ ih =>
    intro st hr hw hle
    have hn := (word_iff w).1 hword
    have h1 : oneWord a st w = addPos a st w := by
      unfold oneWord
      rw [hr, if_neg (by simp), if_neg (by rintro rfl; cases hn), if_neg (by simp [hn]), hw]
    unfold Taken
    simp only [argsOf, List.length_cons, optsOf]
    by_cases hlt : st.pos.length < a.pos.length
    · have h2 : oneWord a st w = .ok { st with pos := st.pos ++ [w] } := by rw [h1, addPos, if_pos hlt]
      rw [words_cons h2]
      obtain ⟨i1, i2⟩ := ih { st with pos := st.pos ++ [w] } hr hw (by simp only [List.length_append, List.length_singleton]; omega)
      simp only [List.length_append, List.length_singleton] at i1 i2
      constructor
      · intro hl
        obtain ⟨st', e1, e2, e3⟩ := i1 (by omega)
        exact ⟨st', e1, e2, by rw [e3]; simp⟩
      · exact fun hl => i2 (by omega)
    · have h2 : oneWord a st w = .refused := by rw [h1, addPos, if_neg hlt]
      rw [words, h2]
      exact ⟨fun hl => by omega, fun _ => rfl⟩
  | @long o w t ps ws ho ht hd he _ ih =>
    intro st hr hw hle
    have h1 : oneWord a st w = .ok (addFlag st o) := by
      rw [one_long hr hd (by simp [(wf.named o ho).1]), longWord_flag wf ho ht hd he]
    exact taken_step (qs := ps) (words_cons h1) rfl rfl (by simp [optsOf, addFlag]) (ih (addFlag st o) hr rfl hle)
  | @longEq o w t v ps ws ho ht hd ha _ ih =>
    intro st hr hw hle
    have h1 : oneWord a st w = .ok (addOpt st o (some t)) := by
      rw [one_long hr hd (by simp [(wf.named o ho).1]), longWord_eq wf ho ht hd]
    exact taken_step (qs := ps) (words_cons h1) rfl rfl (by simp [optsOf, addOpt, trim_after ha]) (ih (addOpt st o (some t)) hr rfl hle)
  | @longSep o w v ps ws ho ht hd hv _ ih =>
    intro st hr hw hle
    have h1 : oneWord a st w = .ok (addOpt st o none) := by
      rw [one_long hr hd (wf.named o ho).1, longWord_sep wf ho ht hd]
    have h2 : oneWord a (addOpt st o none) v = .ok _ := one_value hr hv rfl
    have hk := ih { addOpt st o none with given := (o.id, some v) :: (addOpt st o none).given.tail, wait := none } hr rfl hle
    exact taken_step (qs := ps) ((words_cons h1).trans (words_cons h2)) rfl rfl (by simp [optsOf, addOpt]) hk
  | @short fs cs ps ws hne hl _ ih =>
    intro st hr hw hle
    obtain ⟨c, r, rfl, hc⟩ := letters_head wf hl hne
    have h1 : oneWord a st ('-' :: c :: r) = .ok (pushFlags st fs) := by
      have := shortWord_letters wf hl st []
      rw [List.append_nil] at this
      rw [one_short hr hc, this]
      rfl
    refine taken_step (qs := ps) (words_cons h1) (by rw [pushFlags_eq]) (by rw [argsOf_append, argsOf_flags]; rfl) ?_ (ih _ (by rw [pushFlags_eq]; exact hr) (by rw [pushFlags_eq, if_neg hne]) (by rw [pushFlags_eq]; exact hle))
    rw [optsOf_append, optsOf_flags, pushFlags_eq]
    simp
  | @shortEq fs cs o c t v ps ws hl ho ht hs hte ha _ ih =>
    intro st hr hw hle
    have hcd : ∃ d r, cs ++ c :: t = d :: r ∧ d ≠ '-' := by
      by_cases hne : fs = []
      · subst hne
        cases hl
        exact ⟨c, t, rfl, fun e => (wf.named o ho).2.2.2 (by rw [hs, e])⟩
      · obtain ⟨d, r, rfl, hd⟩ := letters_head wf hl hne
        exact ⟨d, _, rfl, hd⟩
    obtain ⟨d, r, hdr, hd⟩ := hcd
    have h1 : oneWord a st ('-' :: (cs ++ c :: t)) = .ok (addOpt (pushFlags st fs) o (some t)) := by
      rw [hdr, one_short hr hd, ← hdr, shortWord_letters wf hl, shortWord, find_short_takes wf ho ht hs]
      simp only [if_neg hte]
    refine taken_step (qs := ps) (words_cons h1) (by rw [pushFlags_eq]; rfl) (by rw [argsOf_append, argsOf_flags]; rfl) ?_ (ih _ (by rw [pushFlags_eq]; exact hr) rfl (by rw [pushFlags_eq]; exact hle))
    rw [optsOf_append, optsOf_flags, pushFlags_eq]
    simp [optsOf, addOpt, trim_after ha]
  | @shortSep fs cs o c v ps ws hl ho ht hs hv _ ih =>
    intro st hr hw hle
    have hcd : ∃ d r, cs ++ [c] = d :: r ∧ d ≠ '-' := by
      by_cases hne : fs = []
      · subst hne
        cases hl
        exact ⟨c, [], rfl, fun e => (wf.named o ho).2.2.2 (by rw [hs, e])⟩
      · obtain ⟨d, r, rfl, hd⟩ := letters_head wf hl hne
        exact ⟨d, _, rfl, hd⟩
    obtain ⟨d, r, hdr, hd⟩ := hcd
    have h1 : oneWord a st ('-' :: (cs ++ [c])) = .ok (addOpt (pushFlags st fs) o none) := by
      rw [hdr, one_short hr hd, ← hdr, shortWord_letters wf hl, shortWord, find_short_takes wf ho ht hs]
      simp only [if_true]
    have hr' : (addOpt (pushFlags st fs) o none).rest = false := by rw [pushFlags_eq]; exact hr
    have h2 : oneWord a (addOpt (pushFlags st fs) o none) v = .ok _ := one_value hr' hv rfl
    refine taken_step (qs := ps) ((words_cons h1).trans (words_cons h2)) (by rw [pushFlags_eq]; rfl) (by rw [argsOf_append, argsOf_flags]; rfl) ?_ (ih _ hr' rfl (by rw [pushFlags_eq]; exact hle))
    rw [optsOf_append, optsOf_flags, pushFlags_eq]
    simp [optsOf, addOpt]

/-! ## what is allowed -/

theorem u64_iff {v : Str} {n : Nat} : u64FromStr v = some n ↔ IsNumber v n := by
  have hplus : ∀ {d : Str} {m : Nat}, ¬ Spells ('+' :: d) m := by
    intro d m h
    have := (spells_iff.1 h).2.1 '+' (by simp)
    revert this
    decide
  unfold u64FromStr IsNumber
  simp only [usize_iff]
  split
  · rename_i d
    constructor
    · rintro ⟨h1, h2⟩
      exact ⟨h2, d, h1, .inr rfl⟩
    · rintro ⟨h1, e, h2, rfl | h3⟩
      · exact absurd h2 hplus
      · cases h3
        exact ⟨h2, h1⟩
  · rename_i hne
    constructor
    · rintro ⟨h1, h2⟩
      exact ⟨h2, _, h1, .inl rfl⟩
    · rintro ⟨h1, e, h2, rfl | h3⟩
      · exact ⟨h2, h1⟩
      · exact absurd h3 (hne e)

theorem u64_none {v : Str} : (u64FromStr v).isNone = false ↔ ∃ n, IsNumber v n := by
  constructor
  · intro h
    cases hu : u64FromStr v with
    | none => rw [hu] at h; cases h
    | some n => exact ⟨n, u64_iff.1 hu⟩
  · rintro ⟨n, h⟩
    rw [u64_iff.2 h]
    rfl

theorem isNumber_unique {v : Str} {n m : Nat} (h : IsNumber v n) (h' : IsNumber v m) : n = m := by
  have := (u64_iff.2 h).symm.trans (u64_iff.2 h')
  exact Option.some.inj this

/-- Every part is about a declared option of its kind. -/
def Declared (a : AppDef) (ps : List Part) : Prop :=
  (∀ o, Part.flag o ∈ ps → o ∈ a.opts ∧ o.takes = false) ∧ ∀ o v, Part.value o v ∈ ps → o ∈ a.opts ∧ o.takes = true

theorem letters_declared {a : AppDef} {fs : List OptDef} {cs : Str} (h : Letters a fs cs) : ∀ o ∈ fs, o ∈ a.opts ∧ o.takes = false := by
  unfold Letters at h
  induction h with
  | nil => intro o h; cases h
  | cons h _ ih =>
    intro o ho
    rcases List.mem_cons.1 ho with rfl | ho
    · exact ⟨h.1, h.2.1⟩
    · exact ih o ho

theorem line_declared {a : AppDef} {ps : List Part} {l : List Str} (h : Line a ps l) : Declared a ps := by
  unfold Declared
  induction h with
  | nil => simp
  | rest l => simp
  | arg _ _ ih => simpa using ih
  | long ho ht _ _ _ ih =>
    simp only [List.mem_cons, Part.flag.injEq, reduceCtorEq, false_or]
    exact ⟨fun p hp => hp.elim (fun e => by rw [e]; exact ⟨ho, ht⟩) (ih.1 p), ih.2⟩
  | longEq ho ht _ _ _ ih =>
    simp only [List.mem_cons, Part.value.injEq, reduceCtorEq, false_or]
    exact ⟨ih.1, fun p v hp => hp.elim (fun e => by rw [e.1]; exact ⟨ho, ht⟩) (ih.2 p v)⟩
  | longSep ho ht _ _ _ ih =>
    simp only [List.mem_cons, Part.value.injEq, reduceCtorEq, false_or]
    exact ⟨ih.1, fun p v hp => hp.elim (fun e => by rw [e.1]; exact ⟨ho, ht⟩) (ih.2 p v)⟩
  | short _ hl _ ih =>
    have := letters_declared hl
    simp only [List.mem_append, List.mem_map, Part.flag.injEq, exists_eq_right, reduceCtorEq, and_false, exists_false, false_or]
    exact ⟨fun p hp => hp.elim (this p) (ih.1 p), ih.2⟩
  | shortEq hl ho ht _ _ _ _ ih =>
    have := letters_declared hl
    simp only [List.mem_append, List.mem_cons, List.mem_map, Part.flag.injEq, Part.value.injEq, exists_eq_right, reduceCtorEq, and_false, exists_false, false_or]
    exact ⟨fun p hp => hp.elim (this p) (ih.1 p), fun p v hp => hp.elim (fun e => by rw [e.1]; exact ⟨ho, ht⟩) (ih.2 p v)⟩
  | shortSep hl ho ht _ _ _ ih =>
    have := letters_declared hl
    simp only [List.mem_append, List.mem_cons, List.mem_map, Part.flag.injEq, Part.value.injEq, exists_eq_right, reduceCtorEq, and_false, exists_false, false_or]
    exact ⟨fun p hp => hp.elim (this p) (ih.1 p), fun p v hp => hp.elim (fun e => by rw [e.1]; exact ⟨ho, ht⟩) (ih.2 p v)⟩

theorem mem_optsOf {ps : List Part} {id : Str} {v : Option Str} :
    (id, v) ∈ optsOf ps ↔ (∃ o, Part.flag o ∈ ps ∧ o.id = id ∧ v = none) ∨ ∃ o x, Part.value o x ∈ ps ∧ o.id = id ∧ v = some x := by
  induction ps with
  | nil => simp [optsOf]
  | cons p ps ih =>
    cases p with
    | arg w => simp [optsOf, ih]
    | flag o =>
      simp only [optsOf, List.mem_cons, ih, Prod.mk.injEq, Part.flag.injEq, reduceCtorEq, false_or]
      constructor
      · rintro (⟨rfl, rfl⟩ | ⟨p, h1, h2⟩ | h)
        · exact .inl ⟨o, .inl rfl, rfl, rfl⟩
        · exact .inl ⟨p, .inr h1, h2⟩
        · exact .inr h
      · rintro (⟨p, rfl | h1, h2⟩ | h)
        · exact .inl ⟨h2.1.symm, h2.2⟩
        · exact .inr (.inl ⟨p, h1, h2⟩)
        · exact .inr (.inr h)
    | value o w =>
      simp only [optsOf, List.mem_cons, ih, Prod.mk.injEq, Part.value.injEq, reduceCtorEq, false_or]
      constructor
      · rintro (⟨rfl, rfl⟩ | h | ⟨p, x, h1, h2⟩)
        · exact .inr ⟨o, w, .inl ⟨rfl, rfl⟩, rfl, rfl⟩
        · exact .inl h
        · exact .inr ⟨p, x, .inr h1, h2⟩
      · rintro (h | ⟨p, x, ⟨rfl, rfl⟩ | h1, h2⟩)
        · exact .inr (.inl h)
        · exact .inl ⟨h2.1.symm, h2.2⟩
        · exact .inr (.inr ⟨p, x, h1, h2⟩)

theorem mem_value {a : AppDef} (wf : a.Wf) {ps : List Part} (hd : Declared a ps) {o : OptDef} (ho : o ∈ a.opts) {x : Str} :
    (o.id, some x) ∈ optsOf ps ↔ Part.value o x ∈ ps := by
  rw [mem_optsOf]
  constructor
  · rintro (⟨p, _, _, h⟩ | ⟨p, y, h1, h2, h3⟩)
    · cases h
    · cases h3
      rwa [by_id wf (hd.2 p _ h1).1 ho h2] at h1
  · exact fun h => .inr ⟨o, x, h, rfl, rfl⟩

theorem mem_flag {a : AppDef} (wf : a.Wf) {ps : List Part} (hd : Declared a ps) {o : OptDef} (ho : o ∈ a.opts) :
    (o.id, none) ∈ optsOf ps ↔ Part.flag o ∈ ps := by
  rw [mem_optsOf]
  constructor
  · rintro (⟨p, h1, h2, _⟩ | ⟨p, y, _, _, h3⟩)
    · rwa [by_id wf (hd.1 p h1).1 ho h2] at h1
    · cases h3
  · exact fun h => .inl ⟨o, h, rfl, rfl⟩

theorem declared_cons {a : AppDef} {p : Part} {ps : List Part} (h : Declared a (p :: ps)) : Declared a ps :=
  ⟨fun o ho => h.1 o (List.mem_cons_of_mem _ ho), fun o v ho => h.2 o v (List.mem_cons_of_mem _ ho)⟩

theorem count_about {a : AppDef} (wf : a.Wf) {o : OptDef} (ho : o ∈ a.opts) : ∀ {ps : List Part}, Declared a ps →
    ((optsOf ps).filter fun g => g.1 == o.id).length = (ps.filter (about o)).length
  | [], _ => rfl
  | .arg w :: ps, hd => by
    rw [optsOf, List.filter_cons_of_neg (by simp [about])]
    exact count_about wf ho (declared_cons hd)
  | .flag p :: ps, hd => by
    rw [optsOf]
    have ih := count_about wf ho (declared_cons hd)
    by_cases h : p = o
    · subst h
      rw [List.filter_cons_of_pos (by simp), List.filter_cons_of_pos (by simp [about])]
      simpa using ih
    · have : p.id ≠ o.id := fun e => h (by_id wf (hd.1 p (by simp)).1 ho e)
      rw [List.filter_cons_of_neg (by simpa using this), List.filter_cons_of_neg (by simpa [about] using h)]
      exact ih
  | .value p v :: ps, hd => by
    rw [optsOf]
    have ih := count_about wf ho (declared_cons hd)
    by_cases h : p = o
    · subst h
      rw [List.filter_cons_of_pos (by simp), List.filter_cons_of_pos (by simp [about])]
      simpa using ih
    · have : p.id ≠ o.id := fun e => h (by_id wf (hd.2 p v (by simp)).1 ho e)
      rw [List.filter_cons_of_neg (by simpa using this), List.filter_cons_of_neg (by simpa [about] using h)]
      exact ih

theorem badOpt_iff {a : AppDef} (wf : a.Wf) {ps : List Part} (hd : Declared a ps) {o : OptDef} (ho : o ∈ a.opts) (pos : List Str) :
    badOpt ⟨optsOf ps, pos⟩ o = false ↔
      (o.many = false → (ps.filter (about o)).length ≤ 1) ∧ (o.number = true → ∀ v, Part.value o v ∈ ps → ∃ n, IsNumber v n) := by
  unfold badOpt
  rw [Bool.or_eq_false_iff, count_about wf ho hd]
  refine and_congr ?_ ?_
  · cases o.many <;> simp
  · cases o.number
    · simp
    · simp only [Bool.true_and, forall_const, List.any_eq_false, Bool.and_eq_true, beq_iff_eq, Prod.forall, not_and]
      constructor
      · intro h v hv
        have := h o.id (some v) ((mem_value wf hd ho).2 hv) rfl
        simp only [Option.any_some, Bool.not_eq_true] at this
        exact u64_none.1 this
      · rintro h id v hm rfl
        cases v with
        | none => simp
        | some v =>
          simp only [Option.any_some, Bool.not_eq_true]
          exact u64_none.2 (h v ((mem_value wf hd ho).1 hm))

theorem badPos_iff : ∀ (pd : List PosDef) (l : List Str), badPos pd l = false ↔
    (∀ (i : Nat) (p : PosDef), pd[i]? = some p → p.required = true → i < l.length) ∧
    ∀ (i : Nat) (p : PosDef) (v : Str), pd[i]? = some p → p.number = true → l[i]? = some v → ∃ n, IsNumber v n
  | [], l => by simp [badPos]
  | p :: pd, [] => by
    rw [badPos, Bool.or_eq_false_iff, badPos_iff pd []]
    simp only [List.length_nil, Nat.not_lt_zero, imp_false, Bool.not_eq_true, List.getElem?_nil, reduceCtorEq, IsEmpty.forall_iff, implies_true, and_true]
    constructor
    · rintro ⟨h1, h2⟩ i q hq
      cases i with
      | zero => cases hq; exact h1
      | succ i => exact h2 i q hq
    · exact fun h => ⟨h 0 p rfl, fun i q hq => h (i + 1) q hq⟩
  | p :: pd, v :: l => by
    rw [badPos, Bool.or_eq_false_iff, badPos_iff pd l]
    constructor
    · rintro ⟨h1, h2, h3⟩
      constructor
      · intro i q hq hr
        cases i with
        | zero => simp
        | succ i =>
          have := h2 i q hq hr
          simp only [List.length_cons]
          omega
      · intro i q w hq hn hw
        cases i with
        | zero =>
          cases hq
          cases hw
          rw [hn, Bool.true_and] at h1
          exact u64_none.1 h1
        | succ i => exact h3 i q w hq hn hw
    · rintro ⟨h1, h2⟩
      refine ⟨?_, fun i q hq hr => ?_, fun i q w hq hn hw => h2 (i + 1) q w hq hn hw⟩
      · cases hn : p.number with
        | false => rfl
        | true => rw [Bool.true_and]; exact u64_none.2 (h2 0 p v rfl hn rfl)
      · have := h1 (i + 1) q hq hr
        simp only [List.length_cons] at this
        omega

theorem words_few {a : AppDef} : ∀ (l : List Str) (st st' : Seen), words a st l = .ok st' → st.pos.length ≤ a.pos.length → st'.pos.length ≤ a.pos.length
  | [], st, st', h, hl => by cases h; exact hl
  | w :: l, st, st', h, hl => by
    have hshort : ∀ fs : List OptDef, (pushFlags st fs).pos = st.pos := fun fs => by rw [pushFlags_eq]
    have hadd : ∀ (s : Seen) (o : OptDef) (v : Option Str), (addOpt s o v).pos = s.pos := fun s o v => by cases v <;> rfl
    have hpos : ∀ {s s' : Seen}, addPos a s w = .ok s' → s'.pos.length ≤ a.pos.length := by
      intro s s' h
      unfold addPos at h
      split at h
      · cases h
        simp only [List.length_append, List.length_singleton]
        omega
      · cases h
    unfold words at h
    cases h1 : oneWord a st w with
    | info => rw [h1] at h; cases h
    | refused => rw [h1] at h; cases h
    | dangling => rw [h1] at h; cases h
    | ok s =>
      rw [h1] at h
      refine words_few l s st' h ?_
      unfold oneWord at h1
      split at h1
      · exact hpos h1
      split at h1
      · cases h1; exact hl
      split at h1
      · split at h1
        · rename_i hp
          rcases longWord_spec hp h1 with ⟨o, t, -, -, -, -, rfl⟩ | ⟨o, t, -, -, -, rfl⟩ | ⟨o, -, -, -, rfl⟩
          · exact hl
          · rw [hadd]; exact hl
          · rw [hadd]; exact hl
        · rcases shortWord_spec _ _ _ h1 with ⟨fs, -, rfl⟩ | ⟨fs, cs, o, c, t, -, -, -, -, -, rfl⟩
          · rw [hshort]; exact hl
          · rw [hadd, hshort]; exact hl
      · split at h1
        · cases h1; exact hl
        · exact hpos h1

theorem not_lacks {a : AppDef} (wf : a.Wf) {ps : List Part} (hd : Declared a ps) : ¬ Lacks a (optsOf ps) := by
  rintro ⟨o, ho, ht, h⟩
  have := (hd.1 o ((mem_flag wf hd ho).1 h)).2
  rw [ht] at this
  cases this

/-! ## the options of a command -/

theorem gets_iff {a : AppDef} (wf : a.Wf) {ps : List Part} (hd : Declared a ps) (hf : Fits a ps) {o : OptDef} (ho : o ∈ a.opts) (ht : o.takes = true) (hm : o.many = false)
    (v : Option Str) : Gets a ps o.long v ↔ v = (Matches.mk (optsOf ps) (argsOf ps)).valueOf o := by
  have once := hf.once o ho hm
  have same : ∀ x y, Part.value o x ∈ ps → Part.value o y ∈ ps → x = y := by
    intro x y hx hy
    by_contra hne
    have h1 : Part.value o x ∈ ps.filter (about o) := List.mem_filter.2 ⟨hx, by simp [about]⟩
    have h2 : Part.value o y ∈ ps.filter (about o) := List.mem_filter.2 ⟨hy, by simp [about]⟩
    match hl : ps.filter (about o) with
    | [] => rw [hl] at h1; cases h1
    | [p] =>
      rw [hl] at h1 h2
      simp only [List.mem_singleton] at h1 h2
      rw [← h2] at h1
      exact hne (by cases h1; rfl)
    | _ :: _ :: _ => rw [hl] at once; simp at once
  have key : Gets a ps o.long v ↔ ValueIn ps o v := by
    constructor
    · rintro ⟨p, hp, hl, _, h⟩
      rwa [by_long wf hp ho hl] at h
    · exact fun h => ⟨o, ho, rfl, ht, h⟩
  rw [key]
  unfold ValueIn Matches.valueOf
  simp only
  cases hfi : (optsOf ps).find? (fun g => g.1 == o.id) with
  | none =>
    have hno : ∀ x, Part.value o x ∉ ps := by
      intro x hx
      have := List.find?_eq_none.1 hfi (o.id, some x) ((mem_value wf hd ho).2 hx)
      simp at this
    simp only
    constructor
    · rintro (⟨x, hx, _⟩ | ⟨_, h⟩)
      · exact absurd hx (hno x)
      · exact h
    · exact fun h => .inr ⟨hno, h⟩
  | some g =>
    obtain ⟨id, w⟩ := g
    have hid := List.find?_some hfi
    simp only [beq_iff_eq] at hid
    subst hid
    have hmem := List.mem_of_find?_eq_some hfi
    cases w with
    | none =>
      have := (hd.1 o ((mem_flag wf hd ho).1 hmem)).2
      rw [ht] at this
      cases this
    | some w =>
      have hw := (mem_value wf hd ho).1 hmem
      simp only
      constructor
      · rintro (⟨x, hx, rfl⟩ | ⟨h, _⟩)
        · rw [same x w hx hw]
        · exact absurd hw (h w)
      · rintro rfl
        exact .inl ⟨w, hw, rfl⟩

theorem has_iff {a : AppDef} (wf : a.Wf) {ps : List Part} (hd : Declared a ps) {o : OptDef} (ho : o ∈ a.opts) (ht : o.takes = false) (b : Bool) :
    Has a ps o.long b ↔ b = (Matches.mk (optsOf ps) (argsOf ps)).present o.id := by
  have key : (∃ p ∈ a.opts, p.long = o.long ∧ Part.flag p ∈ ps) ↔ (Matches.mk (optsOf ps) (argsOf ps)).present o.id = true := by
    unfold Matches.present
    simp only [List.any_eq_true, beq_iff_eq, Prod.exists]
    constructor
    · rintro ⟨p, hp, hl, h⟩
      rw [by_long wf hp ho hl] at h
      exact ⟨o.id, none, (mem_flag wf hd ho).2 h, rfl⟩
    · rintro ⟨id, v, h, rfl⟩
      cases v with
      | none => exact ⟨o, ho, rfl, (mem_flag wf hd ho).1 h⟩
      | some v =>
        have := (hd.2 o v ((mem_value wf hd ho).1 h)).2
        rw [ht] at this
        cases this
  unfold Has
  rw [key]
  exact Bool.eq_iff_iff.symm

theorem count_flag {a : AppDef} (wf : a.Wf) {ps : List Part} (hd : Declared a ps) {o : OptDef} (ho : o ∈ a.opts) (ht : o.takes = false) :
    (Matches.mk (optsOf ps) (argsOf ps)).count o.id = ps.count (.flag o) := by
  unfold Matches.count
  simp only
  rw [count_about wf ho hd, List.count_eq_length_filter]
  congr 1
  apply List.filter_congr
  intro p hp
  cases p with
  | arg w => simp [about]
  | flag p => simp [about]
  | value p v =>
    have := (hd.2 p v hp).2
    have hne : p ≠ o := by rintro rfl; rw [ht] at this; cases this
    simp [about, hne]

theorem loud_iff {a : AppDef} (wf : a.Wf) {ps : List Part} (hd : Declared a ps) (hf : Fits a ps) (ho : verboseOpt ∈ a.opts) (n : Nat) :
    Loud a ps n ↔ n = (Matches.mk (optsOf ps) (argsOf ps)).verbosity := by
  have hg := gets_iff wf hd hf ho rfl rfl
  have hv : ∃ v, (Matches.mk (optsOf ps) (argsOf ps)).valueOf verboseOpt = some v ∧ ∃ n, IsNumber v n := by
    have := (hg ((Matches.mk (optsOf ps) (argsOf ps)).valueOf verboseOpt)).2 rfl
    obtain ⟨p, hp, hl, _, h⟩ := this
    rw [by_long wf hp ho hl] at h
    rcases h with ⟨x, hx, e⟩ | ⟨_, e⟩
    · exact ⟨x, e, hf.number _ _ hx rfl⟩
    · exact ⟨_, e, 0, u64_iff.1 (by decide)⟩
  obtain ⟨v, e, m, hm⟩ := hv
  have hval : (Matches.mk (optsOf ps) (argsOf ps)).verbosity = m := by
    unfold Matches.verbosity
    rw [e, Option.bind_some, u64_iff.2 hm]
    rfl
  rw [hval]
  unfold Loud
  constructor
  · rintro ⟨w, hw, hn⟩
    have := (hg _).1 hw
    rw [e] at this
    cases this
    exact isNumber_unique hn hm
  · rintro rfl
    exact ⟨v, (hg _).2 e.symm, hm⟩

end Cli
end Art
