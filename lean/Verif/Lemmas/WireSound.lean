import Verif.Lemmas.WireFine
import Verif.Props.Export

/-! Lemmas for C63: projects that were read or modified can be sent. -/

namespace Art
open Spec

/-! ## locations in code -/

theorem tok_sub {t n s : Str} (h : tokHere t = some (.ref n (some s))) : SubLike s := by
  cases (C09_token _ _).1 h with
  | refSub _ _ _ _ _ _ h => exact h.2.1

theorem sendMatches_mem {file : FilePath} {line : Nat} {x : Loc} : ∀ {ms : List Match} {sk : Bool}, x ∈ (sendMatches file line sk ms).1 →
    x.1.line = line ∧ ∃ m ∈ ms, ∃ n sub, srcTok m = some (.ref n sub) ∧ x.2.2 = sub.map SubName.mk
  | [], _, h => by simp [sendMatches] at h
  | m :: ms, sk, h => by
    have more : ∀ {sk}, x ∈ (sendMatches file line sk ms).1 → x.1.line = line ∧ ∃ m' ∈ m :: ms, ∃ n sub, srcTok m' = some (.ref n sub) ∧ x.2.2 = sub.map SubName.mk := by
      intro sk h
      obtain ⟨h1, m', hm, h2⟩ := sendMatches_mem h
      exact ⟨h1, m', List.mem_cons_of_mem _ hm, h2⟩
    unfold sendMatches at h
    split at h
    · split at h
      · exact more h
      · cases h
    · exact more h
    · exact more h
    · rename_i n sub ht
      split at h
      · exact more h
      · split at h
        · rcases List.mem_cons.1 h with rfl | h
          · exact ⟨rfl, m, by simp, n, sub, ht, rfl⟩
          · exact more h
        · cases h

theorem sendLines_mem {file : FilePath} {x : Loc} : ∀ {ls : List Str} {n : Nat} {sk : Bool}, x ∈ (sendLines file n sk ls).1 →
    x.1.line < n + ls.length ∧ ∀ s, x.2.2 = some s → SubLike s.raw
  | [], _, _, h => by simp [sendLines] at h
  | l :: ls, n, sk, h => by
    have here : ∀ {locs o}, sendMatches file n sk (srcRe.findIter l) = (locs, o) → x ∈ locs → x.1.line < n + (l :: ls).length ∧ ∀ s, x.2.2 = some s → SubLike s.raw := by
      intro locs o e hx
      have hx : x ∈ (sendMatches file n sk (srcRe.findIter l)).1 := by rw [e]; exact hx
      obtain ⟨h1, m, hm, k, sub, ht, h2⟩ := sendMatches_mem hx
      refine ⟨by rw [h1]; simp, fun s hs => ?_⟩
      have : some (SrcTok.ref k sub) ∈ (l.tails.filterMap tokHere).map some := by
        rw [← findIter_toks, ← ht]
        exact List.mem_map.2 ⟨m, hm, rfl⟩
      obtain ⟨k', hk, e⟩ := List.mem_map.1 this
      cases e
      obtain ⟨t, _, ht⟩ := List.mem_filterMap.1 hk
      rw [h2] at hs
      cases sub with
      | none => cases hs
      | some y => cases hs; exact tok_sub ht
    unfold sendLines at h
    split at h
    · rename_i e
      exact here e h
    · rename_i e
      rcases List.mem_append.1 h with h | h
      · exact here e h
      · obtain ⟨h1, h2⟩ := sendLines_mem h
        refine ⟨?_, h2⟩
        simp only [List.length_cons]
        omega

theorem linesAux_length : ∀ (s acc : Str), (linesAux acc s).length ≤ s.length + (if acc = [] then 0 else 1)
  | [], [] => by simp [linesAux]
  | [], c :: acc => by simp [linesAux]
  | c :: s, acc => by
    by_cases hc : c = '\n'
    · subst hc
      have h1 := linesAux_length s []
      have h2 : (linesAux acc ('\n' :: s)).length = (linesAux [] s).length + 1 := by
        cases acc <;> rfl
      rw [h2]
      simp only [if_true, List.length_cons] at h1 ⊢
      split <;> omega
    · have h1 := linesAux_length s (c :: acc)
      have h2 : linesAux acc (c :: s) = linesAux (c :: acc) s := by
        cases acc <;> simp [linesAux]
      rw [h2]
      simp only [reduceCtorEq, if_false, List.length_cons] at h1 ⊢
      split <;> omega

theorem lines_length (s : Str) : (lines s).length ≤ s.length := by
  have := linesAux_length s []
  simpa [lines] using this

theorem codeSent_mem {L : Libs} {fs : FS} {f : FilePath} {x : Loc} (h : x ∈ (codeSent L fs f).items) :
    (FilesFit fs → LineNum x.1.line) ∧ ∀ s, x.2.2 = some s → SubLike s.raw := by
  unfold codeSent at h
  split at h
  · rename_i s hs
    obtain ⟨h1, h2⟩ := sendLines_mem h
    refine ⟨fun hf => ?_, h2⟩
    have := hf f s (Or.inl hs)
    have := lines_length s
    unfold LineNum
    omega
  · rename_i s id hs
    obtain ⟨h1, h2⟩ := sendLines_mem h
    refine ⟨fun hf => ?_, h2⟩
    have := hf f s (Or.inr ⟨id, hs⟩)
    have := lines_length s
    unfold LineNum
    omega
  · cases h

/-! ## joining locations -/

theorem mem_insert_key {α β κ : Type} [HasKey α κ] [DecidableEq κ] {m : IMap α β} {a : α} {b : β} {p : α × β} (h : p ∈ IMap.insert m a b) :
    p ∈ m ∨ p.2 = b ∧ (p.1 = a ∨ ∃ q ∈ m, q.1 = p.1) := by
  induction m with
  | nil => simp [IMap.insert] at h; right; rw [h]; exact ⟨rfl, Or.inl rfl⟩
  | cons q m ih =>
    unfold IMap.insert at h
    split at h
    · rcases List.mem_cons.1 h with rfl | h
      · exact Or.inr ⟨rfl, Or.inr ⟨q, by simp, rfl⟩⟩
      · exact Or.inl (List.mem_cons_of_mem _ h)
    · rcases List.mem_cons.1 h with rfl | h
      · exact Or.inl (by simp)
      · rcases ih h with h | ⟨h1, h2 | ⟨y, hy, h2⟩⟩
        · exact Or.inl (List.mem_cons_of_mem _ h)
        · exact Or.inr ⟨h1, Or.inl h2⟩
        · exact Or.inr ⟨h1, Or.inr ⟨y, List.mem_cons_of_mem _ hy, h2⟩⟩

theorem join_from (P : SubName → Prop) (Q : CodeLoc → Prop) (l : List Loc) (h : ∀ x ∈ l, Q x.1 ∧ ∀ s, x.2.2 = some s → P s) :
    (∀ y ∈ (l.foldl joinStep ⟨[], [], []⟩).primary, Q y.2) ∧ ∀ y ∈ (l.foldl joinStep ⟨[], [], []⟩).secondary, ∀ z ∈ y.2, P z.1 ∧ Q z.2 := by
  induction l using List.reverseRecOn with
  | nil => exact ⟨by simp, by simp⟩
  | append_singleton l y ih =>
    obtain ⟨i1, i2⟩ := ih fun x hx => h x (List.mem_append_left _ hx)
    obtain ⟨h1, h2⟩ := h y (by simp)
    rw [List.foldl_append, List.foldl_cons, List.foldl_nil]
    generalize l.foldl joinStep ⟨[], [], []⟩ = st at i1 i2 ⊢
    obtain ⟨loc, m, sub⟩ := y
    cases sub with
    | none =>
      refine ⟨fun y hy => ?_, i2⟩
      rcases mem_insert hy with hy | hy
      · exact i1 y hy
      · rw [hy]; exact h1
    | some sub =>
      simp only [joinStep, insertSecondary]
      cases hg : IMap.get? st.secondary m with
      | none =>
        refine ⟨i1, fun y hy z hz => ?_⟩
        rcases mem_insert hy with hy | hy
        · exact i2 y hy z hz
        · rw [hy] at hz
          rw [List.mem_singleton.1 hz]
          exact ⟨h2 sub rfl, h1⟩
      | some e =>
        obtain ⟨a', _, hmem⟩ := IMap.mem_of_get? hg
        refine ⟨i1, fun y hy z hz => ?_⟩
        rcases mem_insert hy with hy | hy
        · exact i2 y hy z hz
        · rw [hy] at hz
          rcases mem_insert_key hz with hz | ⟨hz, hk⟩
          · exact i2 _ hmem z hz
          · refine ⟨?_, by rw [hz]; exact h1⟩
            rcases hk with hk | ⟨q, hq, hk⟩
            · rw [hk]; exact h2 sub rfl
            · rw [← hk]; exact (i2 _ hmem q hq).1

theorem joined_from (P : SubName → Prop) (Q : CodeLoc → Prop) (l : List Loc) (h : ∀ x ∈ l, Q x.1 ∧ ∀ s, x.2.2 = some s → P s) :
    ∀ x ∈ (joinLocations l).1, (∀ c, x.2.primary = some c → Q c) ∧ ∀ z ∈ x.2.secondary, P z.1 ∧ Q z.2 := by
  intro x hx
  obtain ⟨hn, hg⟩ := joinLocations_get l
  have hx' := IMap.get?_of_mem hn hx
  rw [hg] at hx'
  obtain ⟨j1, j2⟩ := join_from P Q l h
  have h1 : ∀ c, IMap.get? (l.foldl joinStep ⟨[], [], []⟩).primary x.1 = some c → Q c := by
    intro c hc
    obtain ⟨n, _, hm⟩ := IMap.mem_of_get? hc
    exact j1 _ hm
  have h2 : ∀ m, IMap.get? (l.foldl joinStep ⟨[], [], []⟩).secondary x.1 = some m → ∀ z ∈ m, P z.1 ∧ Q z.2 := by
    intro c hc
    obtain ⟨n, _, hm⟩ := IMap.mem_of_get? hc
    exact j2 _ hm
  revert hx' h1 h2
  cases IMap.get? (l.foldl joinStep ⟨[], [], []⟩).primary x.1 <;> cases IMap.get? (l.foldl joinStep ⟨[], [], []⟩).secondary x.1 <;> intro e h1 h2
  · cases e
  · rw [← Option.some.inj e]; exact ⟨nofun, h2 _ rfl⟩
  · rw [← Option.some.inj e]; exact ⟨fun c hc => h1 _ hc, by simp⟩
  · rw [← Option.some.inj e]; exact ⟨fun c hc => h1 _ hc, h2 _ rfl⟩

/-! ## projects -/

/-- What holds of every project, but for the line numbers. -/
structure Whole.Sendable (p : Project) : Prop where
  settings : SettingsSound p.settings
  codes : IMap.Nodup p.codeImpls
  nodup : ∀ x ∈ p.codeImpls, IMap.Nodup x.2.secondary
  subs : ∀ x ∈ p.codeImpls, ∀ y ∈ x.2.secondary, SubLike y.1.raw
  arts : IMap.Nodup p.artifacts
  partof : ∀ x ∈ p.artifacts, ISet.Nodup x.2.partof
  parts : ∀ x ∈ p.artifacts, ISet.Nodup x.2.parts
  subnames : ∀ x ∈ p.artifacts, ISet.Nodup x.2.subnames
  valid : ∀ x ∈ p.artifacts, ∀ s ∈ x.2.subnames, SubLike s.raw
  impl : ∀ x ∈ p.artifacts, ∀ c, x.2.impl = .code c → ∃ y ∈ p.codeImpls, y.2 = c
  ratios : ∀ x ∈ p.artifacts, Thousandth x.2.completed.spc ∧ Thousandth x.2.completed.tst

namespace Whole

theorem Sendable.code {p : Project} (h : Sendable p) (hl : LinesFit p) {x : Name × ImplCode} (hx : x ∈ p.codeImpls) : CodeSound x.2 :=
  ⟨(hl x hx).1, h.nodup x hx, h.subs x hx, (hl x hx).2⟩

theorem Sendable.sound {p : Project} (h : Sendable p) (hl : LinesFit p) : ProjectSound p := by
  refine ⟨h.settings, h.codes, fun x hx => h.code hl hx, h.arts, fun x hx => ⟨h.partof x hx, h.parts x hx, h.subnames x hx, h.valid x hx, fun c hc => ?_⟩⟩
  obtain ⟨y, hy, rfl⟩ := h.impl x hx c hc
  exact h.code hl hy

theorem Sendable.back {p : Project} (h : Sendable p) {w : ℚ → Str} {read : Str → Option ℚ} (hn : NumbersBack w read) : RatiosBack w read p :=
  fun x hx => ⟨hn _ (h.ratios x hx).1, hn _ (h.ratios x hx).2⟩

theorem sendable_sort {p : Project} (h : Sendable p) : Sendable p.sort := by
  have hc : ∀ x ∈ p.sort.codeImpls, ∃ y ∈ p.codeImpls, x = (y.1, y.2.sort) := by
    intro x hx
    obtain ⟨y, hy, rfl⟩ := List.mem_map.1 hx
    exact ⟨y, (mem_sortOn _).1 hy, rfl⟩
  have hm : ∀ x ∈ p.sort.artifacts, ∃ y ∈ p.artifacts, x = (y.1, y.2.sort) := by
    intro x hx
    obtain ⟨y, hy, rfl⟩ := List.mem_map.1 hx
    exact ⟨y, (mem_sortOn _).1 hy, rfl⟩
  refine ⟨h.settings, ?_, ?_, ?_, ?_, ?_, ?_, ?_, ?_, ?_, ?_⟩
  · have := (IMap.nodup_perm (sortOn_perm (fun x : Name × ImplCode => x.1.keyStr) p.codeImpls)).2 h.codes
    exact IMap.nodup_of_fst this (by show List.map _ (List.map _ _) = _; rw [List.map_map]; rfl)
  · intro x hx
    obtain ⟨y, hy, rfl⟩ := hc x hx
    exact (IMap.nodup_perm (sortOn_perm _ _)).2 (h.nodup y hy)
  · intro x hx z hz
    obtain ⟨y, hy, rfl⟩ := hc x hx
    exact h.subs y hy z ((mem_sortOn _).1 hz)
  · have := (IMap.nodup_perm (sortOn_perm (fun x : Name × Artifact => x.1.keyStr) p.artifacts)).2 h.arts
    exact IMap.nodup_of_fst this (by show List.map _ (List.map _ _) = _; rw [List.map_map]; rfl)
  · intro x hx
    obtain ⟨y, hy, rfl⟩ := hm x hx
    exact nodup_sortNames (h.partof y hy)
  · intro x hx
    obtain ⟨y, hy, rfl⟩ := hm x hx
    exact nodup_sortNames (h.parts y hy)
  · intro x hx
    obtain ⟨y, hy, rfl⟩ := hm x hx
    exact (ISet.nodup_perm (sortOn_perm _ _)).2 (h.subnames y hy)
  · intro x hx z hz
    obtain ⟨y, hy, rfl⟩ := hm x hx
    exact h.valid y hy z ((mem_sortOn _).1 hz)
  · intro x hx c hcode
    obtain ⟨y, hy, rfl⟩ := hm x hx
    have hcode : y.2.impl.sort = .code c := hcode
    cases hi : y.2.impl with
    | done s => rw [hi] at hcode; cases hcode
    | notImpl => rw [hi] at hcode; cases hcode
    | code d =>
      rw [hi] at hcode
      cases hcode
      obtain ⟨z, hz, rfl⟩ := h.impl y hy d hi
      exact ⟨(z.1, z.2.sort), List.mem_map.2 ⟨z, (mem_sortOn _).2 hz, rfl⟩, rfl⟩
  · intro x hx
    obtain ⟨y, hy, rfl⟩ := hm x hx
    exact h.ratios y hy

theorem thousandth_round {q : ℚ} (h : Unit01 q) : Thousandth (roundRatio q) := by
  obtain ⟨h1, h2⟩ := roundRatio_unit h
  unfold roundRatio at *
  generalize roundQ (q * 1000) = z at *
  have hz : 0 ≤ z := by
    have : (0 : ℚ) ≤ z := by rw [le_div_iff₀ (by norm_num)] at h1; simpa using h1
    exact_mod_cast this
  obtain ⟨k, rfl⟩ := Int.eq_ofNat_of_zero_le hz
  refine ⟨k, ?_, by push_cast; rfl⟩
  have : (k : ℚ) ≤ 1000 := by rw [div_le_iff₀ (by norm_num)] at h2; simpa using h2
  exact_mod_cast this

theorem thousandth_zero : Thousandth 0 := ⟨0, by norm_num, by norm_num⟩

theorem loads_sendable {hash : ArtifactIm → HashIm} {l : List ArtifactIm} {code : IMap Name ImplCode} {arts : IMap Name Artifact} {p : Project}
    (h : Loads hash (joinArtifacts l).arts code (joinArtifacts l).files arts) (hs : SettingsSound p.settings) (hc : IMap.Nodup code)
    (hn : ∀ x ∈ code, IMap.Nodup x.2.secondary) (hv : ∀ x ∈ code, ∀ y ∈ x.2.secondary, SubLike y.1.raw) (ha : p.artifacts = arts) (hp : p.codeImpls = code) : Sendable p := by
  subst hp ha
  have inp := joinArtifacts_input l
  have sp := h.spec inp
  have as : ∀ x ∈ p.artifacts, ∃ im, ArtSpec hash (joinArtifacts l).arts p.codeImpls (p.artifacts.map Prod.snd) x.2 im :=
    fun x hx => sp.2.2.2.2.2.1 x.2 (List.mem_map.2 ⟨x, hx, rfl⟩)
  refine ⟨hs, hc, hn, hv, IMap.nodup_of_fst inp.dnodup sp.1, ?_, ?_, ?_, ?_, ?_, ?_⟩
  · intro x hx
    obtain ⟨im, as⟩ := as x hx
    exact as.pnodup
  · intro x hx
    obtain ⟨im, as⟩ := as x hx
    exact as.partsNodup
  · intro x hx
    obtain ⟨im, as⟩ := as x hx
    obtain ⟨l', h1, h2, _, _⟩ := C08_subnames im.text
    rw [as.subs] at h1
    cases Res.ok.inj h1
    exact h2
  · intro x hx s hs
    obtain ⟨im, as⟩ := as x hx
    obtain ⟨l', h1, _, _, h4⟩ := C08_subnames im.text
    rw [as.subs] at h1
    cases Res.ok.inj h1
    exact (h4 s hs).1
  · intro x hx c hcode
    obtain ⟨im, as⟩ := as x hx
    rw [as.impl] at hcode
    unfold implOf at hcode
    split at hcode
    · cases hcode
    · split at hcode
      · rename_i d hg
        cases hcode
        obtain ⟨n, _, hm⟩ := IMap.mem_of_get? hg
        exact ⟨_, hm, rfl⟩
      · cases hcode
  · intro x hx
    have hx' : x.2 ∈ p.artifacts.map Prod.snd := List.mem_map.2 ⟨x, hx, rfl⟩
    by_cases hcy : Cyclic (p.artifacts.map Prod.snd)
    · rw [sp.2.2.2.2.2.2.1 hcy x.2 hx']
      exact ⟨thousandth_zero, thousandth_zero⟩
    · obtain ⟨spc, tst, hr, hcomp⟩ := sp.2.2.2.2.2.2.2 hcy
      obtain ⟨u1, u2⟩ := rule_bounds hr hcy x.2 hx'
      rw [hcomp x.2 hx']
      exact ⟨thousandth_round u1, thousandth_round u2⟩

theorem resolved_nodup {base : FilePath} {ps : List Str} {l : ISet FilePath} (h : resolveRawPaths base ps = .ok l) : ISet.Nodup l := by
  unfold resolveRawPaths at h
  obtain ⟨r, _, h⟩ := Res.bind_eq_ok.1 h
  cases h
  exact ISet.nodup_collect _

theorem settings_sound {base path : FilePath} {raw : SettingsRaw} {s : Settings} (h : resolveSettings base path raw = .ok s) : SettingsSound s := by
  unfold resolveSettings at h
  obtain ⟨a, ha, h⟩ := Res.bind_eq_ok.1 h
  obtain ⟨b, hb, h⟩ := Res.bind_eq_ok.1 h
  obtain ⟨c, hc, h⟩ := Res.bind_eq_ok.1 h
  obtain ⟨d, hd, h⟩ := Res.bind_eq_ok.1 h
  cases h
  exact ⟨(ISet.nodup_perm (sortOn_perm _ _)).2 (resolved_nodup ha), (ISet.nodup_perm (sortOn_perm _ _)).2 (resolved_nodup hb),
    (ISet.nodup_perm (sortOn_perm _ _)).2 (resolved_nodup hc), (ISet.nodup_perm (sortOn_perm _ _)).2 (resolved_nodup hd)⟩

theorem read_sendable {L : Libs} {readToml : Str → Option SettingsRaw} {hash : ArtifactIm → HashIm} {ncpu : Nat} {fs : FS} {base : FilePath} {c : Categorized} {p : Project}
    (h : ReadsProject L readToml hash ncpu fs base (.ok (c, p))) : Sendable p := by
  obtain ⟨raw, path, s, r, arts, ls, _, hs, ha, he, hl, _, rfl, _⟩ := reads_parts h
  refine sendable_sort (loads_sendable hl (settings_sound hs) (joinLocations_get r.locs).1 (secondary_nodup _) (fun x hx y hy => ?_) rfl rfl)
  refine ((joined_from (fun s => SubLike s.raw) (fun _ => True) r.locs (fun y hy => ⟨trivial, ?_⟩) x hx).2 y hy).1
  obtain ⟨f, _, hm⟩ := List.mem_flatMap.1 (ha.locs.mem_iff.1 hy)
  exact (codeSent_mem hm).2

/-- Line numbers of a project that was read from files that are not too long. -/
theorem read_lines {L : Libs} {readToml : Str → Option SettingsRaw} {hash : ArtifactIm → HashIm} {ncpu : Nat} {fs : FS} {base : FilePath} {c : Categorized} {p : Project}
    (h : ReadsProject L readToml hash ncpu fs base (.ok (c, p))) (hf : FilesFit fs) : LinesFit p := by
  obtain ⟨raw, path, s, r, arts, ls, _, hs, ha, he, hl, _, rfl, _⟩ := reads_parts h
  intro x hx
  obtain ⟨y, hy, rfl⟩ := List.mem_map.1 hx
  have hy := (mem_sortOn _).1 hy
  have := joined_from (fun _ => True) (fun c => LineNum c.line) r.locs (fun y hy => ⟨?_, fun _ _ => trivial⟩) y hy
  · exact ⟨this.1, fun z hz => (this.2 z ((mem_sortOn _).1 hz)).2⟩
  · obtain ⟨f, _, hm⟩ := List.mem_flatMap.1 (ha.locs.mem_iff.1 hy)
    exact (codeSent_mem hm).1 hf

/-! ## lints -/

theorem lint_line {L : Libs} {p : Project} {ls : List Lint} (h : p.lint L = .ok ls) {d : Lint} (hd : d ∈ ls) {n : Nat} (hn : d.line = some n) (hl : LinesFit p) : LineNum n := by
  unfold Project.lint at h
  obtain ⟨o, ho, h⟩ := Res.bind_eq_ok.1 h
  cases h
  unfold Project.lintOther at ho
  obtain ⟨refs, hr, ho⟩ := Res.bind_eq_ok.1 ho
  cases ho
  have hall : ∀ (x : Name × ImplCode), x ∈ p.codeImpls → ∀ msg, d ∈ codeLintAll x.1 x.2 msg → LineNum n := by
    intro x hx msg hm
    unfold codeLintAll at hm
    rcases List.mem_append.1 hm with hm | hm
    · split at hm
      · rename_i loc hp
        rw [List.mem_singleton.1 hm] at hn
        cases hn
        exact (hl x hx).1 _ hp
      · cases hm
    · obtain ⟨y, hy, rfl⟩ := List.mem_map.1 hm
      cases hn
      exact (hl x hx).2 y hy
  rcases List.mem_append.1 hd with hd | hd
  · exfalso
    unfold Project.lintErrors lintPartofDne lintPartofTypes lintText lintDoneSubnames at hd
    simp only [List.mem_append, List.mem_flatMap, List.mem_filterMap] at hd
    rcases hd with ((⟨x, _, y, _, hd⟩ | ⟨x, _, y, _, hd⟩) | ⟨x, _, y, _, hd⟩) | ⟨x, _, hd⟩
    · split at hd
      · cases hd
      · cases hd; cases hn
    · split at hd
      · cases hd; cases hn
      · cases hd
    · unfold textLintLine at hd
      split at hd
      · rw [List.mem_singleton.1 hd] at hn; cases hn
      · split at hd
        · rw [List.mem_singleton.1 hd] at hn; cases hn
        · cases hd
    · split at hd
      · cases hd; cases hn
      · cases hd
  · rcases List.mem_append.1 hd with hd | hd
    · rcases List.mem_append.1 hd with hd | hd
      · exfalso
        unfold lintTextRefs at hr
        obtain ⟨rs, h1, hr⟩ := Res.bind_eq_ok.1 hr
        cases hr
        obtain ⟨r, hr, hd⟩ := List.mem_flatten.1 hd
        obtain ⟨x, _, hx⟩ := forall₂_mem_right (Res.mapM'_eq_ok.1 h1) hr
        unfold refLintsOf at hx
        obtain ⟨qs, h2, hx⟩ := Res.bind_eq_ok.1 hx
        cases hx
        obtain ⟨q, hq, hd⟩ := List.mem_flatten.1 hd
        obtain ⟨m, _, hm⟩ := forall₂_mem_right (Res.mapM'_eq_ok.1 h2) hq
        unfold refLintOf at hm
        split at hm
        · cases hm
        · split at hm
          · have e := Res.ok.inj hm
            rw [← e] at hd
            split at hd
            · rw [List.mem_singleton.1 hd] at hn; cases hn
            · split at hd
              · cases hd
              · rw [List.mem_singleton.1 hd] at hn; cases hn
            · cases hd
          · cases hm
      · obtain ⟨x, hx, hd⟩ := List.mem_flatMap.1 hd
        unfold codeLintStep at hd
        split at hd
        · split at hd
          · exact hall x hx _ hd
          · obtain ⟨y, hy, hd⟩ := List.mem_filterMap.1 hd
            split at hd
            · cases hd
            · cases hd
              cases hn
              exact (hl x hx).2 y hy
          · cases hd
        · exact hall x hx _ hd
    · exfalso
      unfold lintSettings at hd
      split at hd
      · cases hd
      · split at hd
        · cases hd
        · rw [List.mem_singleton.1 hd] at hn; cases hn

/-- No lint has a line that does not fit. -/
def LinesOk (l : List Lint) : Prop := ∀ d ∈ l, ∀ n, d.line = some n → LineNum n

theorem categorize_lines {c : Categorized} {l : List Lint} (hc : LintsSound c) (hl : LinesOk l) : LintsSound (c.categorize l) := by
  intro d hd
  rw [categorize_eq] at hd
  simp only [List.mem_append, List.mem_filter] at hd
  rcases hd with (hd | hd) | (hd | hd)
  · exact hc d (by simp [hd])
  · exact hl d hd.1
  · exact hc d (by simp [hd])
  · exact hl d hd.1

theorem sort_lines {c : Categorized} (hc : LintsSound c) : LintsSound c.sort := by
  intro d hd
  refine hc d ?_
  simp only [Categorized.sort, List.mem_append, mem_dedupAdj, mem_sortOn] at hd ⊢
  exact hd

theorem read_lints_fit {L : Libs} {readToml : Str → Option SettingsRaw} {hash : ArtifactIm → HashIm} {ncpu : Nat} {fs : FS} {base : FilePath} {c : Categorized} {p : Project}
    (h : ReadsProject L readToml hash ncpu fs base (.ok (c, p))) (hf : LinesFit p) : LintsSound c := by
  obtain ⟨raw, path, s, r, arts, ls, _, hs, ha, he, hl, hli, rfl, rfl⟩ := reads_parts h
  refine sort_lines (categorize_lines ?_ fun d hd n hn => lint_line hli hd hn ?_)
  · unfold Run.categorized
    rw [read_no_lints ha he]
    intro d hd
    cases hd
  · intro x hx
    have := hf (x.1, x.2.sort) (List.mem_map.2 ⟨x, (mem_sortOn _).2 hx, rfl⟩)
    exact ⟨this.1, fun y hy => this.2 y ((mem_sortOn _).2 hy)⟩

theorem errors_lines (L : Libs) (p : Project) : LinesOk (p.lintErrors L) := by
  intro d hd n hn
  exfalso
  unfold Project.lintErrors lintPartofDne lintPartofTypes lintText lintDoneSubnames at hd
  simp only [List.mem_append, List.mem_flatMap, List.mem_filterMap] at hd
  rcases hd with ((⟨x, _, y, _, hd⟩ | ⟨x, _, y, _, hd⟩) | ⟨x, _, y, _, hd⟩) | ⟨x, _, hd⟩
  · split at hd
    · cases hd
    · cases hd; cases hn
  · split at hd
    · cases hd; cases hn
    · cases hd
  · unfold textLintLine at hd
    split at hd
    · rw [List.mem_singleton.1 hd] at hn; cases hn
    · split at hd
      · rw [List.mem_singleton.1 hd] at hn; cases hn
      · cases hd
  · split at hd
    · cases hd; cases hn
    · cases hd

theorem walk_lines (L : Libs) (fs : FS) (f : FilePath → Bool → Bool) (roots : ISet FilePath) : LinesOk (walkLints L fs f roots) := by
  intro d hd n hn
  unfold walkLints at hd
  obtain ⟨r, _, hd⟩ := List.mem_filterMap.1 hd
  split at hd
  · cases hd; cases hn
  · cases hd

theorem LinesOk.append {l m : List Lint} (hl : LinesOk l) (hm : LinesOk m) : LinesOk (l ++ m) := by
  intro d hd
  rcases List.mem_append.1 hd with hd | hd
  · exact hl d hd
  · exact hm d hd

theorem save_lines {L : Libs} {s : Settings} {files : List (FilePath × Str)} {c d : Cfg} (h : Reaches L s files c d) (hc : LinesOk c.lints) : LinesOk d.lints := by
  induction h with
  | refl => exact hc
  | tail _ st ih =>
    cases st with
    | act => exact ih
    | fail before after a rest msg =>
      refine ih.append fun x hx n hn => ?_
      rw [List.mem_singleton.1 hx] at hn
      unfold failLint at hn
      split at hn <;> cases hn
    | backupErr => exact ih
    | backupOk => exact ih
    | saveErr => exact ih
    | saveOk => exact ih.append (walk_lines _ _ _ _)
    | removeOk => exact ih

theorem linesFit_sort {p : Project} : LinesFit p.sort ↔ LinesFit p := by
  constructor
  · intro hf x hx
    have := hf (x.1, x.2.sort) (List.mem_map.2 ⟨x, (mem_sortOn _).2 hx, rfl⟩)
    exact ⟨this.1, fun y hy => this.2 y ((mem_sortOn _).2 hy)⟩
  · intro hf x hx
    obtain ⟨y, hy, rfl⟩ := List.mem_map.1 hx
    have := hf y ((mem_sortOn _).1 hy)
    exact ⟨this.1, fun z hz => this.2 z ((mem_sortOn _).1 hz)⟩

/-- A result that can be sent. -/
def Fits (r : ProjectResult) : Prop := Sendable r.project ∧ (LinesFit r.project → LintsSound r.lints)

theorem read_fits {L : Libs} {readToml : Str → Option SettingsRaw} {hash : ArtifactIm → HashIm} {ncpu : Nat} {fs : FS} {base : FilePath} {c : Categorized} {p : Project}
    (h : ReadsProject L readToml hash ncpu fs base (.ok (c, p))) : Fits ⟨p, c⟩ := ⟨read_sendable h, read_lints_fit h⟩

theorem modify_fits {L : Libs} {readToml : Str → Option SettingsRaw} {hash : ArtifactIm → HashIm} {dbg : ArtifactIm → Str} {ncpu : Nat} {fs fs' : FS} {base : FilePath}
    {ops : List ArtifactOp} {c1 : Categorized} {p1 : Project} (h : Modifies L readToml hash dbg ncpu fs base ops (some (.ok (c1, p1))) fs') : Fits ⟨p1, c1⟩ := by
  generalize hg : some (Res.ok (c1, p1)) = o at h
  cases h with
  | early => cases hg
  | refused _ _ h3 => exact absurd (Option.some.inj hg).symm (h3 _)
  | crash => cases hg
  | failed => cases hg
  | @done read c' p' files cfg h1 h2 _ h4 _ =>
    cases hg
    cases read with
    | panic => cases h2
    | err e =>
      exfalso
      unfold PlansRead at h2
      simp only [checkLints_eq] at h2
      split at h2 <;> cases h2
    | ok r =>
      obtain ⟨c, q⟩ := r
      have h2 : Plans L hash dbg c q ops (.ok (c', p')) := h2
      obtain ⟨_, _, _, _, ims, rfl, hlo, hj, e, _, rfl⟩ := plans_ok h2
      obtain ⟨f1, f2⟩ := read_fits h1
      have hci : p'.codeImpls = q.codeImpls := by rw [e]
      have hse : p'.settings = q.settings := by rw [e]
      refine ⟨sendable_sort (loads_sendable hlo (hse ▸ f1.settings) f1.codes f1.nodup f1.subs rfl hci), fun hl => ?_⟩
      have hl : LinesFit p' := linesFit_sort.1 hl
      have hl : LinesFit q := by unfold LinesFit at hl; rw [hci] at hl; exact hl
      exact categorize_lines (categorize_lines (f2 hl) (errors_lines _ _)) (save_lines h4 (walk_lines _ _ _ _))

/-- Whatever the server has or answers with can be sent. -/
theorem served_fits {E : Env} {fs : FS} {dir repo : FilePath} {s t : Server} {hist : List Art.Event} (hst : Starts E fs dir repo s) (h : Art.Runs E s hist t) :
    Fits t.value ∧ ∀ i r w, Art.Event.finish i r (.success w) ∈ hist → Fits w := by
  obtain ⟨hf, hr⟩ := hst
  rename_i c p
  induction h with
  | nil => exact ⟨read_fits hr, by simp⟩
  | @snoc h s e t _ st ih =>
    have quiet : (∀ i r w, e ≠ .finish i r (.success w)) → t.value = s.value → Fits t.value ∧ ∀ i r w, Art.Event.finish i r (.success w) ∈ h ++ [e] → Fits w := by
      intro h1 h2
      rw [h2]
      refine ⟨ih.1, fun i r w hm => ?_⟩
      rcases List.mem_append.1 hm with hm | hm
      · exact ih.2 i r w hm
      · exact absurd (List.mem_singleton.1 hm).symm (h1 i r w)
    cases st with
    | arrive => exact quiet nofun rfl
    | reject => exact quiet nofun rfl
    | lock => exact quiet nofun rfl
    | poisoned => exact quiet nofun rfl
    | @work _ _ _ _ _ _ _ hd =>
      have one : ∀ {v : ProjectResult} {i r}, Fits v → ∀ i' r' w, Art.Event.finish i' r' (.success w) ∈ h ++ [.finish i r (.success v)] → Fits w := by
        intro v i r hv i' r' w hm
        rcases List.mem_append.1 hm with hm | hm
        · exact ih.2 _ _ w hm
        · have := List.mem_singleton.1 hm
          cases this
          exact hv
      cases hd with
      | read => exact ⟨ih.1, one ih.1⟩
      | readBad => exact quiet nofun rfl
      | @reload o hr' =>
        cases o with
        | ok x => exact ⟨read_fits hr', one (read_fits hr')⟩
        | err => exact quiet nofun rfl
        | panic => exact quiet nofun rfl
      | modifyBad => exact quiet nofun rfl
      | modifyUnread => exact quiet nofun rfl
      | modifyPanic => exact quiet nofun rfl
      | @modify _ _ o _ hops hm =>
        cases o with
        | ok x => exact ⟨modify_fits hm, one (modify_fits hm)⟩
        | err => exact quiet nofun rfl
        | panic => exact quiet nofun rfl
    | send => exact quiet nofun rfl
    | edit => exact quiet nofun rfl
    | quit => exact quiet nofun rfl
    | kill => exact quiet nofun rfl
    | die => exact quiet nofun rfl

end Whole
end Art
