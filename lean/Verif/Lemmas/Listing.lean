import Verif.Spec.Listing
import Verif.Lemmas.View
import Verif.Lemmas.Text
import Verif.Props.Scan
import Verif.Lemmas.Markdown

/-!
# Lemmas for C61
-/

namespace Art
open Spec

section
variable {L : Libs} {readToml : Str → Option SettingsRaw} {hash : ArtifactIm → HashIm} {ncpu : Nat} {fs : FS} {base : FilePath}
  {c : Categorized} {p : Project}

theorem tenths_grid (k : ℤ) : tenths ((k : ℚ) / 1000) = k := by
  unfold tenths roundQ
  rw [div_mul_cancel₀ _ (by norm_num)]
  split
  · rw [Int.floor_eq_iff]; constructor <;> linarith
  · rw [Int.ceil_eq_iff]; constructor <;> linarith

/-- The ratios of a project that was read are thousandths. -/
theorem reads_grid (h : ReadsProject L readToml hash ncpu fs base (.ok (c, p))) {a : Artifact} (ha : a ∈ artsOf p.artifacts) :
    ∃ k m : Nat, k ≤ 1000 ∧ m ≤ 1000 ∧ a.completed = ⟨(k : ℚ) / 1000, (m : ℚ) / 1000⟩ := by
  obtain ⟨_, _, s, r, arts, ls, _, _, _, _, hl, _, rfl, _⟩ := reads_parts h
  have inp := joinArtifacts_input r.arts
  obtain ⟨x, hx, rfl⟩ := List.mem_map.1 ha
  obtain ⟨y, hy, rfl⟩ := List.mem_map.1 hx
  have hm : y.2 ∈ arts.map Prod.snd := List.mem_map.2 ⟨y, (mem_sortOn _).1 hy, rfl⟩
  show ∃ k m : Nat, k ≤ 1000 ∧ m ≤ 1000 ∧ y.2.completed = _
  obtain ⟨_, _, _, _, _, _, hcyc, hrule⟩ := Loads.spec inp hl
  by_cases hc : Cyclic (arts.map Prod.snd)
  · exact ⟨0, 0, by omega, by omega, by rw [hcyc hc _ hm]; norm_num⟩
  · obtain ⟨spc, tst, hr, hcomp⟩ := hrule hc
    obtain ⟨u1, u2⟩ := rule_bounds hr hc _ hm
    have g : ∀ {q : ℚ}, 0 ≤ q ∧ q ≤ 1 → ∃ k : Nat, k ≤ 1000 ∧ roundRatio q = (k : ℚ) / 1000 := by
      intro q hq
      obtain ⟨r1, r2⟩ := roundRatio_unit hq
      unfold roundRatio at r1 r2 ⊢
      rw [div_le_iff₀ (by norm_num)] at r2
      rw [le_div_iff₀ (by norm_num)] at r1
      have h1 : (0 : ℤ) ≤ roundQ (q * 1000) := by exact_mod_cast (by linarith : (0 : ℚ) ≤ roundQ (q * 1000))
      have h2 : roundQ (q * 1000) ≤ 1000 := by exact_mod_cast (by linarith : (roundQ (q * 1000) : ℚ) ≤ 1000)
      obtain ⟨k, hk⟩ := Int.eq_ofNat_of_zero_le h1
      refine ⟨k, by omega, by rw [hk]; simp⟩
    obtain ⟨k, hk, ek⟩ := g u1
    obtain ⟨m, hm', em⟩ := g u2
    exact ⟨k, m, hk, hm', by rw [hcomp _ hm, ek, em]⟩

theorem spells_showNat (n : Nat) : Spells (showNat n) n :=
  spells_iff.2 ⟨showNat_ne_nil n, fun _ h => showNat_digit h, decVal_showNat n⟩

theorem percent_grid (k : Nat) : Percent (percent ((k : ℚ) / 1000)) ((k : ℚ) / 1000) := by
  have e : (tenths ((k : ℚ) / 1000)).toNat = k := by
    have := tenths_grid (k : ℤ)
    rw [show (((k : ℤ) : ℚ)) = (k : ℚ) by simp] at this
    rw [this]; rfl
  unfold percent
  rw [e]
  obtain ⟨d, hd⟩ : ∃ d, showNat (k % 10) = [d] := by
    have : ∀ j : Fin 10, ∃ d, showNat j.1 = [d] := by
      intro j
      refine ⟨(showNat j.1).headD '0', ?_⟩
      revert j; decide
    exact this ⟨k % 10, Nat.mod_lt _ (by omega)⟩
  refine ⟨showNat (k / 10), d, k / 10, k % 10, by rw [hd]; simp, spells_showNat _, hd ▸ spells_showNat _, ?_⟩
  rw [Nat.div_add_mod]

theorem joined_commaed {α : Type} {P : α → Styled → Prop} {l : List α} {r : List Styled} (h : List.Forall₂ P l r) : Joined P l (commaed r) := by
  induction h with
  | nil => exact .nil
  | @cons x s l r hx h ih =>
    cases h with
    | nil => exact .one hx
    | @cons y t l' r' hy h' =>
      have : commaed (s :: t :: r') = s :: plainText c!", " :: commaed (t :: r') := by
        simp [commaed, List.dropLast_cons_of_ne_nil]
      rw [this]
      exact .more hx ih

theorem lookupStyle_spec {arts : IMap Name Artifact} (hname : ∀ x ∈ arts, x.2.name = x.1) (n : Name) :
    ∃ s, lookupStyle arts n = .ok s ∧ NameShown (artsOf arts) n s := by
  unfold lookupStyle
  cases hg : IMap.get? arts n with
  | none =>
    refine ⟨_, rfl, Or.inr ⟨fun a ha e => ?_, rfl⟩⟩
    obtain ⟨x, hx, rfl⟩ := List.mem_map.1 ha
    rw [hname x hx] at e
    have := (IMap.get?_eq_none.1 hg) x hx
    exact this e
  | some a =>
    obtain ⟨n', e, hm⟩ := IMap.mem_of_get? hg
    obtain ⟨k, hk, -⟩ := C38_total a.completed
    refine ⟨_, by simp only [Artifact.nameStyle, hk, Res.bind_ok]; rfl, Or.inl ⟨a, List.mem_map.2 ⟨_, hm, rfl⟩, ?_, rfl, k, hk, rfl, rfl, rfl⟩⟩
    rw [hname _ hm]; exact e

theorem lookupNames_spec {arts : IMap Name Artifact} (hname : ∀ x ∈ arts, x.2.name = x.1) (l : List Name) :
    ∃ r, lookupNameStyles arts l = .ok r ∧ Joined (NameShown (artsOf arts)) l r := by
  obtain ⟨r, hr⟩ := Res.mapM'_ok_of (f := lookupStyle arts) (l := l) (fun n _ => by
    obtain ⟨s, hs, _⟩ := lookupStyle_spec hname n
    exact ⟨s, hs⟩)
  refine ⟨commaed r, by unfold lookupNameStyles; rw [hr]; rfl, joined_commaed ?_⟩
  refine (Res.mapM'_eq_ok.1 hr).imp ?_
  intro n s h
  obtain ⟨s', hs, h'⟩ := lookupStyle_spec hname n
  rw [h] at hs
  cases hs
  exact h'

theorem subnameStyle_spec (a : Artifact) (s : SubName) : SubnameShown a s (a.subnameStyle s) := by
  refine ⟨rfl, ?_, ?_⟩
  · rintro ⟨co, hc, x, hx, e⟩
    have : (IMap.get? co.secondary s).isSome = true := by
      cases hg : IMap.get? co.secondary s with
      | some _ => rfl
      | none => exact absurd e (IMap.get?_eq_none.1 hg x hx)
    simp [Coloured, Artifact.subnameStyle, hc, this, plainText]
  · intro hn
    unfold Artifact.subnameStyle
    cases hi : a.impl with
    | done _ => exact ⟨rfl, rfl, rfl⟩
    | notImpl => exact ⟨rfl, rfl, rfl⟩
    | code co =>
      cases hg : IMap.get? co.secondary s with
      | none => simp [Coloured, hg, plainText]
      | some l =>
        obtain ⟨s', e, hm⟩ := IMap.mem_of_get? hg
        exact absurd ⟨co, hi, _, hm, e⟩ hn

theorem locShow (l : CodeLoc) : LocShown l l.show := ⟨_, spells_showNat _, rfl⟩

theorem implShow (i : Impl) : ImplShown i i.show := by
  cases i with
  | done _ => rfl
  | notImpl => rfl
  | code co =>
    refine ⟨_, _, rfl, ?_, ?_, ?_, ?_⟩
    · intro h; rw [h]
    · intro l h; rw [h]; exact locShow l
    · intro h; rw [h]; rfl
    · intro h
      refine ⟨co.secondary.map (fun x => x.1.show ++ c!": " ++ x.2.show), by rw [if_neg (by simpa using h)], ?_⟩
      rw [List.forall₂_map_right_iff, List.forall₂_same]
      intro x _
      exact ⟨_, locShow _, by simp [SubName.show]⟩

theorem shortText_spec (s : Str) : Escaped (s.take 30) (shortText s) := by
  unfold shortText
  generalize s.take 30 = t
  induction t with
  | nil => exact .nil
  | cons ch t ih =>
    by_cases h : ch = '\n'
    · subst h; exact .lf ih
    · rw [List.flatMap_cons, if_neg h]; exact .other h ih

theorem columns_fields (f : Flags) : Columns f (headerColumns f) := by
  refine ⟨?_, by simp [headerColumns], (C35_columns f).2.1⟩
  obtain ⟨b1, b2, b3, b4, b5, b6, b7⟩ := f
  revert b1 b2 b3 b4 b5 b6 b7
  decide

theorem forall₂_ite {α β : Type} {R : α → β → Prop} {b : Bool} {x : α} {y : β} (h : b = true → R x y) :
    List.Forall₂ R (if b = true then [x] else []) (if b = true then [y] else []) := by
  cases b with
  | false => exact .nil
  | true => exact .cons (h rfl) .nil

theorem header_spec (f : Flags) : List.Forall₂ (fun co cell => cell = [(⟨Column.title co, none, true, false⟩ : Styled)]) (headerColumns f) (tableHeader f) := by
  unfold headerColumns tableHeader
  repeat' apply List.rel_append
  all_goals first
    | exact forall₂_ite (fun _ => rfl)
    | exact .cons rfl (.cons rfl .nil)


theorem cells_spec (h : ReadsProject L readToml hash ncpu fs base (.ok (c, p))) (f : Flags) {a : Artifact} (ha : a ∈ artsOf p.artifacts) :
    ∃ row, a.lineStyle p.artifacts f = .ok row ∧ List.Forall₂ (CellShown (artsOf p.artifacts) a) (headerColumns f) row := by
  obtain ⟨_, hname, _⟩ := reads_names h
  obtain ⟨k, m, -, -, hcomp⟩ := reads_grid h ha
  obtain ⟨kn, hn, -⟩ := C38_total a.completed
  obtain ⟨ks, es, -⟩ := spcColor_of a.completed
  obtain ⟨kt, et, -⟩ := tstColor_of a.completed
  obtain ⟨r1, e1, j1⟩ := lookupNames_spec hname a.parts
  obtain ⟨r2, e2, j2⟩ := lookupNames_spec hname a.partof
  have ps : Percent (percent a.completed.spc) a.completed.spc := by rw [hcomp]; exact percent_grid k
  have pt : Percent (percent a.completed.tst) a.completed.tst := by rw [hcomp]; exact percent_grid m
  have opt : ∀ {α β : Type} (b : Bool) (x : Res Unit α) (v : α), x = .ok v → ∀ g : α → List β,
      onlyIf b (do let n ← x; Res.ok (g n)) = .ok (if b = true then g v else []) := by
    intro α β b x v e g
    cases b with
    | false => rfl
    | true => rw [e]; rfl
  have name : a.nameStyle = .ok { plainText a.name.raw with color := some kn } := by unfold Artifact.nameStyle; rw [hn]; rfl
  refine ⟨_, by
    unfold Artifact.lineStyle Completed.spcStyle Completed.tstStyle
    rw [es, et]
    simp only [Res.bind_ok]
    rw [opt f.name _ _ name, Res.bind_ok, opt f.parts _ _ e1, Res.bind_ok, opt f.partof _ _ e2, Res.bind_ok], ?_⟩
  unfold headerColumns
  repeat' apply List.rel_append
  · exact .cons ⟨_, ks, rfl, ps, es, rfl, rfl, rfl⟩ (.cons ⟨_, kt, rfl, pt, et, rfl, rfl, rfl⟩ .nil)
  · exact forall₂_ite (fun _ => ⟨_, _, kn, rfl, rfl, rfl, hn, rfl, rfl, rfl⟩)
  · refine forall₂_ite (fun _ => ⟨_, _, rfl, rfl, joined_commaed ?_⟩)
    rw [List.forall₂_map_right_iff, List.forall₂_same]
    exact fun s _ => subnameStyle_spec a s
  · exact forall₂_ite (fun _ => ⟨_, _, rfl, rfl, j1⟩)
  · exact forall₂_ite (fun _ => ⟨_, _, rfl, rfl, j2⟩)
  · exact forall₂_ite (fun _ => ⟨_, _, rfl, rfl, rfl⟩)
  · exact forall₂_ite (fun _ => ⟨_, _, _, rfl, rfl, rfl, implShow _⟩)
  · exact forall₂_ite (fun _ => ⟨_, _, _, rfl, rfl, rfl, shortText_spec _⟩)

theorem forall₂_choose {α β : Type} {f : α → Res Unit β} {R : α → β → Prop} {l : List α} (h : ∀ a ∈ l, ∃ b, f a = .ok b ∧ R a b) :
    ∃ r, Res.mapM' f l = .ok r ∧ List.Forall₂ R l r := by
  induction l with
  | nil => exact ⟨[], rfl, .nil⟩
  | cons a l ih =>
    obtain ⟨b, e, hb⟩ := h a (by simp)
    obtain ⟨r, er, hr⟩ := ih (fun x hx => h x (by simp [hx]))
    exact ⟨b :: r, by simp only [Res.mapM', e, er]; rfl, .cons hb hr⟩

/-- The subnames of a project that was read are well formed. -/
theorem reads_subnames (h : ReadsProject L readToml hash ncpu fs base (.ok (c, p))) {a : Artifact} (ha : a ∈ artsOf p.artifacts) {s : SubName}
    (hs : s ∈ a.subnames) : SubLike s.raw := by
  obtain ⟨_, _, st, r, arts, ls, _, _, _, _, hl, _, rfl, _⟩ := reads_parts h
  have inp := joinArtifacts_input r.arts
  obtain ⟨x, hx, rfl⟩ := List.mem_map.1 ha
  obtain ⟨y, hy, rfl⟩ := List.mem_map.1 hx
  have hm : y.2 ∈ arts.map Prod.snd := List.mem_map.2 ⟨y, (mem_sortOn _).1 hy, rfl⟩
  obtain ⟨_, _, _, _, _, hspec, _⟩ := Loads.spec inp hl
  obtain ⟨im, sp⟩ := hspec _ hm
  obtain ⟨l, e, _, _, h4⟩ := C08_subnames im.text
  rw [sp.subs] at e
  cases e
  exact (h4 s ((mem_sortOn _).1 hs)).1

theorem escaped_noNl {t s : Str} (h : Escaped t s) : '\n' ∉ s := by
  induction h with
  | nil => simp
  | lf _ ih => simp only [List.mem_cons, not_or]; exact ⟨by decide, by decide, ih⟩
  | other hc _ ih => simp only [List.mem_cons, not_or]; exact ⟨fun e => hc e.symm, ih⟩

theorem escaped_length {t s : Str} (h : Escaped t s) : s.length ≤ 2 * t.length := by
  induction h with
  | nil => simp
  | lf _ ih => simp only [List.length_cons]; omega
  | other _ _ ih => simp only [List.length_cons]; omega

theorem joined_texts {α : Type} {P : α → Styled → Prop} {l : List α} {r : List Styled} (h : Joined P l r) {Q : Str → Prop}
    (hc : Q c!", ") (hP : ∀ x ∈ l, ∀ s, P x s → Q s.text) : ∀ s ∈ r, Q s.text := by
  induction h with
  | nil => nofun
  | @one x s hx => intro t ht; simp only [List.mem_singleton] at ht; subst ht; exact hP x (by simp) _ hx
  | @more x y l s r hx _ ih =>
    intro t ht
    simp only [List.mem_cons] at ht
    rcases ht with rfl | rfl | ht
    · exact hP x (by simp) _ hx
    · exact hc
    · exact ih (fun z hz => hP z (by simp at hz ⊢; tauto)) t ht

theorem nameShown_noNl {arts : List Artifact} {n : Name} {s : Styled} (h : NameShown arts n s) : '\n' ∉ s.text := by
  rcases h with ⟨a, _, _, e, _⟩ | ⟨_, rfl⟩
  · rw [e]; exact name_noNl
  · exact name_noNl

theorem percent_noNl {s : Str} {x : ℚ} (h : Percent s x) : '\n' ∉ s := by
  obtain ⟨i, d, n, k, rfl, hi, hd, _⟩ := h
  have h1 := (spells_iff.1 hi).2.1
  have h2 := (spells_iff.1 hd).2.1
  intro hm
  simp only [List.mem_append, List.mem_cons, List.not_mem_nil, or_false] at hm
  rcases hm with hm | hm | hm
  · exact absurd (h1 _ hm) (by decide)
  · exact absurd hm (by decide)
  · exact absurd (h2 '\n' (by rw [← hm]; simp)) (by decide)

/-- The artifacts that are listed are artifacts of the project. -/
theorem lsShown_mem {compile : Str → Option (Str → Bool)} {cmd : Ls} {as : List Artifact} (hs : lsShown compile cmd (.ok (c, p)) = .ok as) :
    ∀ a ∈ as, a ∈ artsOf p.artifacts := by
  have get : ∀ {n : Name} {a : Artifact}, IMap.get? p.artifacts n = some a → a ∈ artsOf p.artifacts := by
    intro n a e
    obtain ⟨n', _, hm⟩ := IMap.mem_of_get? e
    exact List.mem_map.2 ⟨_, hm, rfl⟩
  unfold lsShown at hs
  rcases hf : filterArtifacts compile cmd p.artifacts with ns | e | _ <;> simp only [hf, Res.bind_ok] at hs
  · rcases hj : outputJson cmd.outputTy with j | e | _ <;> simp only [hj, Res.bind_ok] at hs
    · cases j with
      | true =>
        simp only [if_true, Res.ok.injEq] at hs
        subst hs
        intro a ha
        obtain ⟨n, _, e⟩ := List.mem_filterMap.1 ha
        exact get e
      | false =>
        simp only [Bool.false_eq_true, if_false] at hs
        have := Res.mapM'_eq_ok.1 hs
        intro a ha
        obtain ⟨n, _, e⟩ := forall₂_mem_right this ha
        split at e
        · cases e; exact get ‹_›
        · cases e
    · cases hs
    · cases hs
  · cases hs
  · cases hs

theorem trimEnd_getLast {s : Str} {ch : Char} (h : (trimEnd s).getLast? = some ch) : isWS ch = false := by
  have hne : trimEnd s ≠ [] := by intro e; rw [e] at h; cases h
  obtain ⟨t, d, e, hd⟩ := trimEnd_last s hne
  rw [e] at h
  simp at h
  rw [← h]; exact hd

theorem long_spec (h : ReadsProject L readToml hash ncpu fs base (.ok (c, p))) (f : Flags) {a : Artifact} (ha : a ∈ artsOf p.artifacts) :
    ∃ l, a.fullStyle p.artifacts f = .ok l ∧ ∃ lines, LongLines (artsOf p.artifacts) f a lines ∧
      l = lines.flatMap (fun l => l ++ [(⟨c!"\n", none, false, false⟩ : Styled)]) := by
  obtain ⟨_, hname, _⟩ := reads_names h
  obtain ⟨k, m, -, -, hcomp⟩ := reads_grid h ha
  obtain ⟨kn, hn, -⟩ := C38_total a.completed
  obtain ⟨ks, es, -⟩ := spcColor_of a.completed
  obtain ⟨kt, et, -⟩ := tstColor_of a.completed
  obtain ⟨r1, e1, j1⟩ := lookupNames_spec hname a.parts
  obtain ⟨r2, e2, j2⟩ := lookupNames_spec hname a.partof
  have ps : Percent (percent a.completed.spc) a.completed.spc := by rw [hcomp]; exact percent_grid k
  have pt : Percent (percent a.completed.tst) a.completed.tst := by rw [hcomp]; exact percent_grid m
  have name : a.nameStyle = .ok { plainText a.name.raw with color := some kn } := by unfold Artifact.nameStyle; rw [hn]; rfl
  have ext : ∀ (b : Bool) (title : Str) (names : List Name) (r : List Styled), lookupNameStyles p.artifacts names = .ok r →
      onlyIf b (extendNames p.artifacts title names) = .ok (if b = true then
        line [boldText (title ++ c!":")] ++ r.flatMap (fun n => line [boldText c!"- ", n]) else []) := by
    intro b title names r e
    cases b with
    | false => rfl
    | true => unfold onlyIf extendNames; rw [e]; rfl
  have wanted : ∀ {b : Bool} {P : List (List Styled) → Prop} {l : List (List Styled)}, P l → Wanted b P (if b = true then l else []) := by
    intro b P l hP
    cases b with
    | false => exact ⟨nofun, fun _ => rfl⟩
    | true => exact ⟨fun _ => hP, nofun⟩
  obtain ⟨w, hw, ew⟩ := trimEnd_split a.text
  refine ⟨_, by
    unfold Artifact.fullStyle Completed.spcStyle Completed.tstStyle
    rw [es, et, name]
    simp only [Res.bind_ok]
    rw [ext f.parts _ _ _ e1, Res.bind_ok, ext f.partof _ _ _ e2, Res.bind_ok], _,
    ⟨kn, a.name.raw, ⟨percent a.completed.spc, some ks, false, false⟩, ⟨percent a.completed.tst, some kt, false, false⟩,
      if f.file = true then [[⟨c!"File: ", none, true, false⟩, ⟨a.file, none, false, false⟩]] else [],
      if f.impl = true then [[⟨c!"Implemented: ", none, true, false⟩, ⟨a.impl.show, none, false, false⟩]] else [],
      if f.parts = true then [⟨c!"Parts:", none, true, false⟩] :: r1.map (fun s => [⟨c!"- ", none, true, false⟩, s]) else [],
      if f.partof = true then [⟨c!"Partof:", none, true, false⟩] :: r2.map (fun s => [⟨c!"- ", none, true, false⟩, s]) else [],
      if f.text = true then [[⟨trimEnd a.text, none, false, false⟩]] else [],
      rfl, rfl, hn, ⟨_, ks, rfl, ps, es, rfl, rfl, rfl⟩, ⟨_, kt, rfl, pt, et, rfl, rfl, rfl⟩,
      wanted rfl, wanted ⟨_, implShow _, rfl⟩, wanted ⟨_, j1, rfl⟩, wanted ⟨_, j2, rfl⟩,
      wanted ⟨_, w, ew, hw, fun ch => trimEnd_getLast, rfl⟩⟩, ?_⟩
  have it : ∀ (b : Bool) (l : List (List Styled)), (if b = true then l else []).flatMap (fun l => l ++ [(⟨c!"\n", none, false, false⟩ : Styled)]) =
      if b = true then l.flatMap (fun l => l ++ [(⟨c!"\n", none, false, false⟩ : Styled)]) else [] := by
    intro b l; cases b <;> rfl
  have ms : ∀ r : List Styled, (r.map (fun s => [(⟨c!"- ", none, true, false⟩ : Styled), s])).flatMap (fun l => l ++ [(⟨c!"\n", none, false, false⟩ : Styled)]) =
      r.flatMap (fun n => line [boldText c!"- ", n]) := by
    intro r; rw [List.flatMap_map]; rfl
  simp only [List.flatMap_cons, List.flatMap_append, it, ms, List.flatMap_nil, List.append_nil]
  simp [line, boldText, plainText]

end

end Art
