import Verif.Lemmas.Scan

/-! Helper lemmas for the source scanner. -/

namespace Art

theorem Res.mapM'_append {ε α β : Type _} (f : α → Res ε β) (l l' : List α) :
    Res.mapM' f (l ++ l') = (do let a ← Res.mapM' f l; let b ← Res.mapM' f l'; pure (a ++ b)) := by
  induction l with
  | nil => simp only [List.nil_append, Res.mapM', Res.bind_ok]; cases Res.mapM' f l' <;> rfl
  | cons x l ih =>
    simp only [List.cons_append, Res.mapM', ih]
    cases f x with
    | ok a =>
      simp only [Res.bind_ok]
      cases Res.mapM' f l with
      | ok b => simp only [Res.bind_ok]; cases Res.mapM' f l' <;> rfl
      | err e => rfl
      | panic => rfl
    | err e => rfl
    | panic => rfl

/-! ### The token at one position -/

theorem ms_hash (t : Str) : Re.ms (.litI c!"#") t = match t with
    | '#' :: u => [(c!"#", u, [])]
    | _ => [] := by
  cases t with
  | nil => rfl
  | cons c u =>
    by_cases h : c = '#'
    · subst h; rfl
    · have hf : (foldC c == foldC '#') = false := by
        rw [beq_eq_false_iff_ne]
        exact fun e => h ((foldC_plain (c := '#') (by decide)).1 e)
      show Re.ms (.seq (.ch _) .eps) (c :: u) = _
      simp only [Re.ms, hf]
      simp
      split
      · rename_i heq; cases heq; exact absurd rfl h
      · rfl

/-- The first alternative of the source pattern after its `#`. -/
def refRe : Re := .seq (.cap 1 nameRe) (.opt (.cap 2 subRe))

theorem here_hash (r : Re) (t : Str) : Re.here (.seq (.litI c!"#") r) t = match t with
    | '#' :: u => (Re.here r u).map fun (m, r', c) => ('#' :: m, r', c)
    | _ => none := by
  unfold Re.here
  simp only [Re.ms, ms_hash]
  split <;> rename_i h
  · simp
  · simp

theorem here_ref (u : Str) : Re.here refRe u = (Re.here nameRe u).bind fun (n, r, _) =>
    match Re.here subRe r with
    | some (s, r', _) => some (n ++ s, r', [(1, n), (2, s)])
    | none => some (n, r, [(1, n)]) := by
  unfold refRe
  rw [Re.here_seq (Re.here_opt_isSome _), Re.here_cap]
  cases h : Re.here nameRe u with
  | none => rfl
  | some x =>
    obtain ⟨n, r, c⟩ := x
    have hc := Re.here_noCap noCap_nameRe h
    subst hc
    simp only [Option.map_some, Option.bind_some]
    unfold Re.opt
    rw [Re.here_alt, Re.here_cap]
    cases h' : Re.here subRe r with
    | none => simp [Re.here, Re.ms]
    | some y =>
      obtain ⟨s, r', d⟩ := y
      have hd := Re.here_noCap noCap_subRe h'
      subst hd
      simp

theorem here_litI {l s : Str} : Re.here (.litI l) s = if (s.take l.length).map foldC = l.map foldC then some (s.take l.length, s.drop l.length, []) else none := by
  induction l generalizing s with
  | nil => simp [Re.litI, Re.here, Re.ms]
  | cons c l ih =>
    show Re.here (.seq (.ch _) (.litI l)) s = _
    unfold Re.here at *
    cases s with
    | nil => simp [Re.ms]
    | cons d s =>
      simp only [Re.ms]
      by_cases h : foldC d = foldC c
      · simp only [h, BEq.rfl, if_true, List.flatMap_cons, List.flatMap_nil, List.append_nil, List.head?_map, ih]
        simp only [List.length_cons, List.take_succ_cons, List.map_cons, List.cons.injEq, h, true_and]
        split <;> simp
      · simp [h]

/-- The token found at exactly this position. -/
def tokHere (t : Str) : Option SrcTok := (Re.here srcRe t).bind srcTok

/-- The first alternative at one position. -/
def hashRef (t : Str) : Option Match :=
  match t with
  | '#' :: u => (Re.here refRe u).map fun (m, r', c) => ('#' :: m, r', c)
  | _ => none

theorem here_src (t : Str) : Re.here srcRe t = (hashRef t).or
      ((if (t.take 9).map foldC = c!"#art-skip" then some (t.take 9, t.drop 9, [(3, t.take 9)]) else none).or
       (if (t.take 9).map foldC = c!"#art-done" then some (t.take 9, t.drop 9, [(4, t.take 9)]) else none)) := by
  have e : srcRe = .alt (.seq (.litI c!"#") refRe) (.alt (.cap 3 (.litI c!"#ART-SKIP")) (.cap 4 (.litI c!"#ART-DONE"))) := rfl
  rw [e, Re.here_alt, Re.here_alt, here_hash, Re.here_cap, Re.here_cap, here_litI, here_litI]
  have h1 : c!"#ART-SKIP".map foldC = c!"#art-skip" := by decide
  have h2 : c!"#ART-DONE".map foldC = c!"#art-done" := by decide
  rw [h1, h2]
  simp only [List.length_cons, List.length_nil]
  show (hashRef t).or _ = _
  congr 2
  · simp only [Nat.reduceAdd]; split <;> simp
  · simp only [Nat.reduceAdd]; split <;> simp

theorem srcTok_isSome {t : Str} {x : Match} (h : Re.here srcRe t = some x) : ∃ k, srcTok x = some k := by
  rw [here_src] at h
  rcases Option.or_eq_some_iff.1 h with h | ⟨_, h⟩
  · unfold hashRef at h
    split at h
    · rename_i u _
      rw [here_ref] at h
      cases h1 : Re.here nameRe u with
      | none => rw [h1] at h; simp at h
      | some y =>
        obtain ⟨n, r, c⟩ := y
        rw [h1] at h
        simp only [Option.bind_some] at h
        split at h
        · simp at h; subst h
          exact ⟨_, rfl⟩
        · simp at h; subst h
          exact ⟨_, rfl⟩
    · simp at h
  · rcases Option.or_eq_some_iff.1 h with h | ⟨_, h⟩
    · split at h
      · cases h; exact ⟨_, rfl⟩
      · cases h
    · split at h
      · cases h; exact ⟨_, rfl⟩
      · cases h

theorem src_noHash {s m r : Str} {c : Caps} (h : Re.here srcRe s = some (m, r, c)) : ∃ w, m = '#' :: w ∧ '#' ∉ w := by
  rw [here_src] at h
  have hlit : ∀ (l : Str), l.length = 8 → '#' ∉ l → (s.take 9).map foldC = '#' :: l → ∃ w, s.take 9 = '#' :: w ∧ '#' ∉ w := by
    intro l hl hno e
    cases hs : s.take 9 with
    | nil => rw [hs] at e; simp at e
    | cons d w =>
      rw [hs] at e
      simp only [List.map_cons, List.cons.injEq] at e
      have : d = '#' := (foldC_plain (c := '#') (by decide)).1 (e.1.trans (by decide))
      subst this
      refine ⟨w, rfl, fun hm => hno ?_⟩
      rw [← e.2]
      exact List.mem_map.2 ⟨'#', hm, by decide⟩
  rcases Option.or_eq_some_iff.1 h with h | ⟨_, h⟩
  · unfold hashRef at h
    split at h
    · rename_i u _
      rw [here_ref] at h
      cases h1 : Re.here nameRe u with
      | none => rw [h1] at h; simp at h
      | some y =>
        obtain ⟨n, r', c'⟩ := y
        obtain ⟨_, ln⟩ := Re.here_sound h1
        rw [h1] at h
        simp only [Option.bind_some] at h
        split at h
        · rename_i s' r'' d' h2
          obtain ⟨_, ls⟩ := Re.here_sound h2
          simp only [Option.map_some, Option.some.injEq, Prod.mk.injEq] at h
          refine ⟨n ++ s', h.1.symm, ?_⟩
          rw [List.mem_append, not_or]
          exact ⟨name_outside ln (by decide), sub_outside ls (by decide)⟩
        · simp only [Option.map_some, Option.some.injEq, Prod.mk.injEq] at h
          exact ⟨n, h.1.symm, name_outside ln (by decide)⟩
    · simp at h
  · rcases Option.or_eq_some_iff.1 h with h | ⟨_, h⟩
    · split at h
      · rename_i e
        simp only [Option.some.injEq, Prod.mk.injEq] at h
        rw [← h.1]
        exact hlit c!"art-skip" rfl (by decide) e
      · cases h
    · split at h
      · rename_i e
        simp only [Option.some.injEq, Prod.mk.injEq] at h
        rw [← h.1]
        exact hlit c!"art-done" rfl (by decide) e
      · cases h

theorem lang_src_ne {m : Str} (h : Re.Lang srcRe m) : m ≠ [] := by
  rintro rfl
  have : (Re.here srcRe []).isSome = true := (Re.here_isSome _ _).2 ⟨[], [], rfl, h⟩
  rw [here_src] at this
  simp [hashRef] at this

theorem findIter_src (s : Str) : Re.findIter srcRe s = s.tails.filterMap (Re.here srcRe) := by
  refine Re.iterFrom_eq (fun m hm => lang_src_ne hm) ?_ _ _ le_rfl
  intro s m r c h u t e hu hlt
  by_contra hne
  cases hh : Re.here srcRe t with
  | none => exact hne hh
  | some x =>
    obtain ⟨m', r', c'⟩ := x
    obtain ⟨w', hw', _⟩ := src_noHash hh
    obtain ⟨w, hw, hno⟩ := src_noHash h
    obtain ⟨es, _⟩ := Re.here_sound h
    obtain ⟨et, _⟩ := Re.here_sound hh
    obtain ⟨v, e1, e2⟩ := split_le (es.symm.trans e) hlt.le
    cases u with
    | nil => exact hu rfl
    | cons a u =>
      rw [hw] at e1
      simp only [List.cons_append, List.cons.injEq] at e1
      cases v with
      | nil => rw [hw, e1.2] at hlt; simp at hlt
      | cons d v =>
        rw [et, hw'] at e2
        simp only [List.cons_append, List.cons.injEq] at e2
        apply hno
        rw [e1.2, ← e2.1]
        simp

theorem findIter_toks (s : Str) : (Re.findIter srcRe s).map srcTok = (s.tails.filterMap tokHere).map some := by
  rw [findIter_src]
  generalize s.tails = l
  induction l with
  | nil => rfl
  | cons t l ih =>
    cases h : Re.here srcRe t with
    | none =>
      have h' : tokHere t = none := by simp [tokHere, h]
      rw [List.filterMap_cons_none h, List.filterMap_cons_none h', ih]
    | some x =>
      obtain ⟨k, hk⟩ := srcTok_isSome h
      have h' : tokHere t = some k := by simp [tokHere, h, hk]
      rw [List.filterMap_cons_some h, List.filterMap_cons_some h', List.map_cons, List.map_cons, ih, hk]

/-! ### The loops -/

/-- One reported reference becomes a location. -/
def toLoc (file : FilePath) (e : Nat × Str × Option Str) : Res Unit Loc :=
  match Name.fromStr e.2.1 with
  | .ok name => .ok (⟨file, e.1⟩, name, e.2.2.map SubName.mk)
  | _ => .panic

/-- References that are not skipped, with the skip state as an accumulator. -/
def unskip : Bool → List (Nat × SrcTok) → List (Nat × Str × Option Str)
  | _, [] => []
  | _, (_, .skip) :: l => unskip true l
  | _, (_, .done) :: l => unskip false l
  | sk, (i, .ref n s) :: l => if sk then unskip sk l else (i, n, s) :: unskip sk l

/-- Skip state after some events. -/
def skAfter : Bool → List (Nat × SrcTok) → Bool
  | sk, [] => sk
  | _, (_, .skip) :: l => skAfter true l
  | _, (_, .done) :: l => skAfter false l
  | sk, (_, .ref _ _) :: l => skAfter sk l

theorem scanMatches_eq (file : FilePath) (line : Nat) (sk : Bool) (ms : List Match) (toks : List SrcTok)
    (h : ms.map srcTok = toks.map some) :
    scanMatches file line sk ms = (do
      let l ← Res.mapM' (toLoc file) (unskip sk (toks.map (fun k => (line, k))))
      pure (skAfter sk (toks.map (fun k => (line, k))), l)) := by
  induction ms generalizing sk toks with
  | nil =>
    cases toks with
    | nil => rfl
    | cons => simp at h
  | cons m ms ih =>
    cases toks with
    | nil => simp at h
    | cons k toks =>
      simp only [List.map_cons, List.cons.injEq] at h
      rw [scanMatches, h.1]
      cases k with
      | skip => simp only [List.map_cons, unskip, skAfter]; exact ih _ _ h.2
      | done => simp only [List.map_cons, unskip, skAfter]; exact ih _ _ h.2
      | ref n s =>
        simp only [List.map_cons, unskip, skAfter]
        cases sk with
        | true => simp only [if_true]; exact ih _ _ h.2
        | false =>
          simp only [Bool.false_eq_true, if_false, Res.mapM', toLoc]
          cases hn : Name.fromStr n with
          | ok name =>
            simp only [Res.bind_ok]
            rw [ih _ _ h.2]
            cases Res.mapM' (toLoc file) (unskip false (toks.map (fun k => (line, k)))) <;> rfl
          | err e => rfl
          | panic => rfl

theorem unskip_append (sk : Bool) (l l' : List (Nat × SrcTok)) :
    unskip sk (l ++ l') = unskip sk l ++ unskip (skAfter sk l) l' := by
  induction l generalizing sk with
  | nil => rfl
  | cons e l ih =>
    obtain ⟨i, k⟩ := e
    cases k with
    | skip => simp only [List.cons_append, unskip, skAfter]; exact ih _
    | done => simp only [List.cons_append, unskip, skAfter]; exact ih _
    | ref n s =>
      simp only [List.cons_append, unskip, skAfter]
      cases sk
      · simp only [Bool.false_eq_true, if_false, List.cons_append, ih]
      · simp only [if_true, ih]

theorem skAfter_append (sk : Bool) (l l' : List (Nat × SrcTok)) :
    skAfter sk (l ++ l') = skAfter (skAfter sk l) l' := by
  induction l generalizing sk with
  | nil => rfl
  | cons e l ih =>
    obtain ⟨i, k⟩ := e
    cases k <;> simp only [List.cons_append, skAfter] <;> exact ih _

/-- All events of the lines, numbered from `n`. -/
def eventsFrom (n : Nat) (ls : List Str) : List (Nat × SrcTok) :=
  (ls.zipIdx n).flatMap (fun p => (p.1.tails.filterMap tokHere).map (fun k => (p.2, k)))

theorem scanLines_eq (file : FilePath) (n : Nat) (sk : Bool) (ls : List Str) :
    scanLines file n sk ls = Res.mapM' (toLoc file) (unskip sk (eventsFrom n ls)) := by
  induction ls generalizing n sk with
  | nil => rfl
  | cons l ls ih =>
    have e : eventsFrom n (l :: ls) = (l.tails.filterMap tokHere).map (fun k => (n, k)) ++ eventsFrom (n + 1) ls := by
      simp [eventsFrom]
    rw [e, unskip_append, Res.mapM'_append, scanLines, scanMatches_eq file n sk _ _ (findIter_toks l)]
    cases Res.mapM' (toLoc file) (unskip sk ((l.tails.filterMap tokHere).map (fun k => (n, k)))) with
    | ok a => simp only [Res.bind_ok, Res.pure_def, ih]
    | err e => rfl
    | panic => rfl

end Art
