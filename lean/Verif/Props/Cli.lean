import Verif.Lemmas.Cli

/-!
# C70: what a command line means
`art` takes a command line exactly if its words are parts that fit the declarations of a sub-command, and the command that runs is the one these parts ask for.
-/

namespace Art
namespace Cli
open Spec

theorem fits_iff {a : AppDef} (wf : a.Wf) {ps : List Part} (hd : Declared a ps) : Fits a ps ↔ (argsOf ps).length ≤ a.pos.length ∧
    (a.opts.any (badOpt ⟨optsOf ps, argsOf ps⟩) || badPos a.pos (argsOf ps)) = false := by
  rw [Bool.or_eq_false_iff, badPos_iff, List.any_eq_false]
  constructor
  · intro h
    refine ⟨h.few, fun o ho => ?_, h.needed, h.argNumber⟩
    rw [Bool.not_eq_true]
    exact (badOpt_iff wf hd ho _).2 ⟨h.once o ho, fun hn v hv => h.number o v hv hn⟩
  · rintro ⟨h1, h2, h3, h4⟩
    refine ⟨fun o ho => ?_, fun o v hv hn => ?_, h1, h3, h4⟩
    · exact ((badOpt_iff wf hd ho (argsOf ps)).1 (by simpa using h2 o ho)).1
    · have ho := (hd.2 o v hv).1
      exact ((badOpt_iff wf hd ho (argsOf ps)).1 (by simpa using h2 o ho)).2 hn v hv

theorem parseApp_line {a : AppDef} (wf : a.Wf) {ps : List Part} {l : List Str} (hl : Line a ps l) :
    (Fits a ps → parseApp a l = .ok ⟨optsOf ps, argsOf ps⟩) ∧ (¬ Fits a ps → parseApp a l = .refused) := by
  have hd := line_declared hl
  have hfi := fits_iff wf hd
  obtain ⟨h1, h2⟩ := words_complete wf hl .start rfl rfl (by simp [Seen.start])
  have hlen : Seen.start.pos.length + (argsOf ps).length = (argsOf ps).length := by simp [Seen.start]
  rw [hlen] at h1 h2
  by_cases hfew : (argsOf ps).length ≤ a.pos.length
  · obtain ⟨st, e1, e2, e3⟩ := h1 hfew
    have e2' : st.given.reverse = optsOf ps := by rw [e2]; simp [Seen.start]
    have e3' : st.pos = argsOf ps := by rw [e3]; simp [Seen.start]
    have hlack : ¬ lacksValue a ⟨optsOf ps, argsOf ps⟩ = true := by
      rw [lacks_iff]
      exact not_lacks wf hd
    unfold parseApp
    rw [e1]
    simp only [e2', e3']
    rw [hfi]
    constructor
    · rintro ⟨_, h⟩
      rw [h, if_neg (by simp), if_neg hlack]
    · intro h
      rw [if_pos]
      by_contra hc
      exact h ⟨hfew, by simpa using hc⟩
  · refine ⟨fun h => absurd h.few hfew, fun _ => ?_⟩
    unfold parseApp
    rw [h2 (by omega)]

theorem parseApp_iff {a : AppDef} (wf : a.Wf) (l : List Str) (m : Matches) :
    parseApp a l = .ok m ↔ ∃ ps, Line a ps l ∧ Fits a ps ∧ m = ⟨optsOf ps, argsOf ps⟩ := by
  constructor
  · intro h
    have hfull := h
    unfold parseApp at h
    cases h1 : words a .start l with
    | info => rw [h1] at h; cases h
    | refused => rw [h1] at h; cases h
    | dangling => rw [h1] at h; cases h
    | ok st =>
      rw [h1] at h
      simp only at h
      split at h
      · cases h
      split at h
      · cases h
      rename_i hlack
      rw [lacks_iff] at hlack
      rcases (words_sound l _ _ h1 rfl).1 rfl with ⟨ps, hl, _⟩ | hx
      · obtain ⟨f1, f2⟩ := parseApp_line wf hl
        by_cases hf : Fits a ps
        · rw [f1 hf] at hfull
          cases hfull
          exact ⟨ps, hl, hf, rfl⟩
        · rw [f2 hf] at hfull
          cases hfull
      · exact absurd (by obtain ⟨o, ho, ht, hm⟩ := hx; exact ⟨o, ho, ht, List.mem_reverse.2 hm⟩) hlack
  · rintro ⟨ps, hl, hf, rfl⟩
    exact (parseApp_line wf hl).1 hf

theorem intends_iff {a : AppDef} (ha : a ∈ apps) {ps : List Part} (hd : Declared a ps) (hf : Fits a ps) (c : Cmd) :
    Intends ps a c ↔ c = cmdOf (some (a.name, ⟨optsOf ps, argsOf ps⟩)) := by
  have wf := apps_wf a ha
  simp only [apps, List.mem_cons, List.not_mem_nil, or_false] at ha
  rcases ha with rfl | rfl | rfl | rfl | rfl | rfl
  · have h1 := loud_iff wf hd hf (by decide)
    have h2 := gets_iff wf hd hf (o := workOpt) (by decide) rfl rfl
    constructor
    · rintro (⟨l, w⟩)
      rw [(h1 _).1 l, (h2 _).1 w]
      rfl
    · rintro rfl
      exact .init ((h1 _).2 rfl) ((h2 _).2 rfl)
  · have h1 := loud_iff wf hd hf (by decide)
    have h2 := gets_iff wf hd hf (o := workOpt) (by decide) rfl rfl
    constructor
    · intro h
      cases h with
      | check l w =>
        rw [(h1 _).1 l, (h2 _).1 w]
        rfl
    · rintro rfl
      exact .check ((h1 _).2 rfl) ((h2 _).2 rfl)
  · have h1 := loud_iff wf hd hf (by decide)
    have h2 := gets_iff wf hd hf (o := workOpt) (by decide) rfl rfl
    have h3 := gets_iff wf hd hf (o := ⟨c!"ty_", none, c!"type", true, false, false, none⟩) (by decide) rfl rfl
    constructor
    · intro h
      cases h with
      | fmt l w t =>
        rw [(h1 _).1 l, (h2 _).1 w, (h3 _).1 t]
        rfl
    · rintro rfl
      exact .fmt ((h1 _).2 rfl) ((h2 _).2 rfl) ((h3 _).2 rfl)
  · have h1 := loud_iff wf hd hf (by decide)
    have h2 := gets_iff wf hd hf (o := workOpt) (by decide) rfl rfl
    have g1 := gets_iff wf hd hf (o := ⟨c!"fields", some 'f', c!"fields", true, false, false, some c!"name"⟩) (by decide) rfl rfl
    have g2 := gets_iff wf hd hf (o := ⟨c!"spc", some 's', c!"spc", true, false, false, some c!">0"⟩) (by decide) rfl rfl
    have g3 := gets_iff wf hd hf (o := ⟨c!"tst", some 't', c!"tst", true, false, false, some c!">0"⟩) (by decide) rfl rfl
    have g4 := gets_iff wf hd hf (o := ⟨c!"output_ty", none, c!"type", true, false, false, some c!"list"⟩) (by decide) rfl rfl
    have f1 := has_iff wf hd (o := flagOpt c!"long" (some 'l') c!"long") (by decide) rfl
    have f2 := has_iff wf hd (o := flagOpt c!"name" (some 'N') c!"name") (by decide) rfl
    have f3 := has_iff wf hd (o := flagOpt c!"file" (some 'F') c!"file") (by decide) rfl
    have f4 := has_iff wf hd (o := flagOpt c!"subnames" (some 'S') c!"subnames") (by decide) rfl
    have f5 := has_iff wf hd (o := flagOpt c!"parts" (some 'P') c!"parts") (by decide) rfl
    have f6 := has_iff wf hd (o := flagOpt c!"partof" (some 'O') c!"partof") (by decide) rfl
    have f7 := has_iff wf hd (o := flagOpt c!"impl_" (some 'I') c!"impl") (by decide) rfl
    have f8 := has_iff wf hd (o := flagOpt c!"text" (some 'T') c!"text") (by decide) rfl
    have f9 := has_iff wf hd (o := flagOpt c!"all" (some 'A') c!"all") (by decide) rfl
    have f10 := has_iff wf hd (o := flagOpt c!"plain" none c!"plain") (by decide) rfl
    have some_of : ∀ (o : OptDef) (d : Str), o.default = some d →
        some (((Matches.mk (optsOf ps) (argsOf ps)).valueOf o).getD []) = (Matches.mk (optsOf ps) (argsOf ps)).valueOf o := by
      intro o d h
      have : ∃ v, (Matches.mk (optsOf ps) (argsOf ps)).valueOf o = some v := by
        unfold Matches.valueOf
        split
        · exact ⟨_, rfl⟩
        · exact ⟨d, h⟩
      obtain ⟨v, e⟩ := this
      rw [e]
      rfl
    have lists : ∀ x b, Lists ps x b ↔ x = lsOf ⟨optsOf ps, argsOf ps⟩ ∧ b = (Matches.mk (optsOf ps) (argsOf ps)).present c!"plain" := by
      intro x b
      constructor
      · intro h
        obtain ⟨pattern, fields, long, spc, tst, ⟨sn, sf, ss, sp, so, si, st⟩, all, ty⟩ := x
        refine ⟨?_, (f10 _).1 h.plain⟩
        have e0 := h.pattern
        have e1 := congrArg (Option.getD · []) ((g1 _).1 h.fields)
        have e2 := congrArg (Option.getD · []) ((g2 _).1 h.spc)
        have e3 := congrArg (Option.getD · []) ((g3 _).1 h.tst)
        have e4 := congrArg (Option.getD · []) ((g4 _).1 h.type)
        have e5 := (f1 _).1 h.long
        have e6 := (f2 _).1 h.name
        have e7 := (f3 _).1 h.file
        have e8 := (f4 _).1 h.subnames
        have e9 := (f5 _).1 h.parts
        have e10 := (f6 _).1 h.partof
        have e11 := (f7 _).1 h.impl
        have e12 := (f8 _).1 h.text
        have e13 := (f9 _).1 h.all
        simp only [Option.getD_some] at e0 e1 e2 e3 e4 e5 e6 e7 e8 e9 e10 e11 e12 e13
        rw [List.head?_eq_getElem?] at e0
        subst e0 e1 e2 e3 e4 e5 e6 e7 e8 e9 e10 e11 e12 e13
        rfl
      · rintro ⟨rfl, rfl⟩
        exact ⟨List.head?_eq_getElem?.symm, (g1 _).2 (some_of _ _ rfl), (f1 _).2 rfl, (g2 _).2 (some_of _ _ rfl), (g3 _).2 (some_of _ _ rfl), (f2 _).2 rfl, (f3 _).2 rfl,
          (f4 _).2 rfl, (f5 _).2 rfl, (f6 _).2 rfl, (f7 _).2 rfl, (f8 _).2 rfl, (f9 _).2 rfl, (g4 _).2 (some_of _ _ rfl), (f10 _).2 rfl⟩
    constructor
    · intro h
      cases h with
      | ls l w x =>
        obtain ⟨rfl, rfl⟩ := (lists _ _).1 x
        rw [(h1 _).1 l, (h2 _).1 w]
        rfl
    · rintro rfl
      exact .ls ((h1 _).2 rfl) ((h2 _).2 rfl) ((lists _ _).2 ⟨rfl, rfl⟩)
  · have h2 := gets_iff wf hd hf (o := workOpt) (by decide) rfl rfl
    have ho : (⟨c!"verbosity", some 'v', c!"verbose", false, true, false, none⟩ : OptDef) ∈ serveApp.opts := by decide
    have h3 := count_flag wf hd ho rfl
    have few : (argsOf ps).length ≤ 1 := hf.few
    have hport : ∀ port, ((argsOf ps = [] ∧ port = 5373) ∨ ∃ v, argsOf ps = [v] ∧ IsNumber v port) ↔ port = (u64FromStr ((argsOf ps)[0]?.getD c!"5373")).getD 0 := by
      intro port
      match hargs : argsOf ps with
      | [] =>
        have e : (u64FromStr c!"5373").getD 0 = 5373 := by decide
        simp [e]
      | [v] =>
        obtain ⟨n, hn⟩ := hf.argNumber 0 _ v rfl rfl (by rw [hargs]; rfl)
        simp only [List.cons_ne_nil, false_and, List.cons.injEq, and_true, exists_eq_left', false_or, List.getElem?_cons_zero, Option.getD_some]
        rw [u64_iff.2 hn]
        exact ⟨fun h => isNumber_unique h hn, fun h => by rw [h]; exact hn⟩
      | _ :: _ :: _ => rw [hargs] at few; simp at few
    constructor
    · intro h
      cases h with
      | serve ho' hl w p =>
        rw [by_long wf ho' ho hl, ← h3, (h2 _).1 w, (hport _).1 p]
        rfl
    · rintro rfl
      have : cmdOf (some (serveApp.name, ⟨optsOf ps, argsOf ps⟩)) = .serve (ps.count (.flag ⟨c!"verbosity", some 'v', c!"verbose", false, true, false, none⟩))
          ((Matches.mk (optsOf ps) (argsOf ps)).valueOf workOpt) ((u64FromStr ((argsOf ps)[0]?.getD c!"5373")).getD 0) := by
        rw [← h3]
        rfl
      rw [this]
      exact .serve ho rfl ((h2 _).2 rfl) ((hport _).2 rfl)
  · have h1 := loud_iff wf hd hf (by decide)
    have h2 := gets_iff wf hd hf (o := workOpt) (by decide) rfl rfl
    have few : (argsOf ps).length ≤ 2 := hf.few
    have enough := hf.needed 1 _ rfl rfl
    have two : ∃ ty path, argsOf ps = [ty, path] := by
      match hargs : argsOf ps with
      | [] => rw [hargs] at enough; simp at enough
      | [_] => rw [hargs] at enough; simp at enough
      | [ty, path] => exact ⟨ty, path, rfl⟩
      | _ :: _ :: _ :: _ => rw [hargs] at few; simp at few
    obtain ⟨ty, path, hargs⟩ := two
    constructor
    · intro h
      cases h with
      | «export» l w e =>
        rw [(h1 _).1 l, (h2 _).1 w, e]
        rfl
    · rintro rfl
      refine .export ((h1 _).2 rfl) ((h2 _).2 rfl) ?_
      simp only [hargs]
      rfl

theorem find_app {a : AppDef} (ha : a ∈ apps) : apps.find? (fun b => b.name == a.name) = some a := by
  simp only [apps, List.mem_cons, List.not_mem_nil, or_false] at ha
  rcases ha with rfl | rfl | rfl | rfl | rfl | rfl <;> decide

/-- The words after `art` are taken exactly if there are none (or just `--`), or the first is the name of a sub-command and the others are parts that fit its
declarations; the command is the one these parts ask for. -/
theorem C70_command (l : List Str) (c : Cmd) :
    commandOf l = .ok c ↔ ((l = [] ∨ l = [['-', '-']]) ∧ c = .missing) ∨
      ∃ a ∈ apps, ∃ ws ps, l = a.name :: ws ∧ Line a ps ws ∧ Fits a ps ∧ Intends ps a c := by
  have step : ∀ {a : AppDef}, a ∈ apps → ∀ ws, (parseArt (a.name :: ws) = match parseApp a ws with
      | .ok m => .ok (some (a.name, m))
      | .info => .info
      | .refused => .refused
      | .dangling => .dangling) := by
    intro a ha ws
    unfold parseArt
    simp only [find_app ha]
    cases parseApp a ws <;> rfl
  constructor
  · intro h
    unfold commandOf at h
    cases h1 : parseArt l with
    | info => rw [h1] at h; cases h
    | refused => rw [h1] at h; cases h
    | dangling => rw [h1] at h; cases h
    | ok x =>
      rw [h1] at h
      simp only [Outcome.ok.injEq] at h
      match l, h1 with
      | [], h1 => cases h1; exact .inl ⟨.inl rfl, h.symm⟩
      | w :: l, h1 =>
        cases hfi : apps.find? (fun a => a.name == w) with
        | some a =>
          have ha := List.mem_of_find?_eq_some hfi
          have hw := List.find?_some hfi
          simp only [beq_iff_eq] at hw
          subst hw
          rw [step ha] at h1
          cases h2 : parseApp a l with
          | info => rw [h2] at h1; cases h1
          | refused => rw [h2] at h1; cases h1
          | dangling => rw [h2] at h1; cases h1
          | ok m =>
            rw [h2] at h1
            cases h1
            obtain ⟨ps, hl, hf, rfl⟩ := (parseApp_iff (apps_wf a ha) l m).1 h2
            exact .inr ⟨a, ha, l, ps, rfl, hl, hf, (intends_iff ha (line_declared hl) hf c).2 h.symm⟩
        | none =>
          unfold parseArt at h1
          simp only [hfi] at h1
          split at h1
          · split at h1
            · cases h1
            · split at h1 <;> cases h1
            · cases h1
          split at h1
          · rename_i hw
            split at h1
            · rename_i hl
              cases h1
              exact .inl ⟨.inr (by rw [hw, hl]), h.symm⟩
            · cases h1
          · split at h1 <;> cases h1
  · rintro (⟨rfl | rfl, rfl⟩ | ⟨a, ha, ws, ps, rfl, hl, hf, hi⟩)
    · rfl
    · rfl
    · unfold commandOf
      rw [step ha, (parseApp_iff (apps_wf a ha) ws _).2 ⟨ps, hl, hf, rfl⟩]
      exact congrArg Outcome.ok ((intends_iff ha (line_declared hl) hf c).1 hi).symm

/-- `run` never gets to its last arm: clap knows no sub-command that `run` does not know. -/
theorem C70_known (l : List Str) (sub : Str) : commandOf l ≠ .ok (.unknown sub) := by
  intro h
  rcases (C70_command l _).1 h with ⟨_, h⟩ | ⟨a, _, ws, ps, _, _, _, hi⟩
  · cases h
  · cases hi

theorem fits_perm {a : AppDef} {ps ps' : List Part} (h : ps.Perm ps') (he : argsOf ps = argsOf ps') (hf : Fits a ps) : Fits a ps' where
  once o ho hm := by rw [← (h.filter _).length_eq]; exact hf.once o ho hm
  number o v hv hn := hf.number o v (h.mem_iff.2 hv) hn
  few := by rw [← he]; exact hf.few
  needed := by rw [← he]; exact hf.needed
  argNumber := by rw [← he]; exact hf.argNumber

theorem gets_perm {a : AppDef} {ps ps' : List Part} (h : ps.Perm ps') {n : Str} {v : Option Str} (hg : Gets a ps n v) : Gets a ps' n v := by
  obtain ⟨o, ho, hl, ht, hv⟩ := hg
  refine ⟨o, ho, hl, ht, ?_⟩
  rcases hv with ⟨x, hx, e⟩ | ⟨hx, e⟩
  · exact .inl ⟨x, h.mem_iff.1 hx, e⟩
  · exact .inr ⟨fun x hm => hx x (h.mem_iff.2 hm), e⟩

theorem has_perm {a : AppDef} {ps ps' : List Part} (h : ps.Perm ps') {n : Str} {b : Bool} (hg : Has a ps n b) : Has a ps' n b := by
  unfold Has at *
  rw [hg]
  simp only [h.mem_iff]

theorem loud_perm {a : AppDef} {ps ps' : List Part} (h : ps.Perm ps') {n : Nat} (hg : Loud a ps n) : Loud a ps' n := by
  obtain ⟨v, h1, h2⟩ := hg
  exact ⟨v, gets_perm h h1, h2⟩

theorem intends_perm {a : AppDef} {ps ps' : List Part} (h : ps.Perm ps') (he : argsOf ps = argsOf ps') {c : Cmd} (hi : Intends ps a c) : Intends ps' a c := by
  cases hi with
  | init l w => exact .init (loud_perm h l) (gets_perm h w)
  | check l w => exact .check (loud_perm h l) (gets_perm h w)
  | fmt l w t => exact .fmt (loud_perm h l) (gets_perm h w) (gets_perm h t)
  | ls l w x =>
    refine .ls (loud_perm h l) (gets_perm h w) ⟨?_, gets_perm h x.fields, has_perm h x.long, gets_perm h x.spc, gets_perm h x.tst, has_perm h x.name, has_perm h x.file,
      has_perm h x.subnames, has_perm h x.parts, has_perm h x.partof, has_perm h x.impl, has_perm h x.text, has_perm h x.all, gets_perm h x.type, has_perm h x.plain⟩
    rw [← he]
    exact x.pattern
  | serve ho hl w p =>
    rw [h.count_eq]
    rw [he] at p
    exact .serve ho hl (gets_perm h w) p
  | «export» l w e => exact .export (loud_perm h l) (gets_perm h w) (by rw [← he]; exact e)

/-- Words that are parts of a sub-command are refused if the parts do not fit its declarations; they are never taken for help or left open. -/
theorem C70_refused {a : AppDef} (ha : a ∈ apps) {ps : List Part} {ws : List Str} (h : Line a ps ws) (hf : ¬ Fits a ps) : commandOf (a.name :: ws) = .refused := by
  unfold commandOf parseArt
  simp only [find_app ha, (parseApp_line (apps_wf a ha) h).2 hf]

/-- The order of the parts does not count, and neither does the way they are written: only the order of the arguments does. -/
theorem C70_order {a : AppDef} (ha : a ∈ apps) {ps ps' : List Part} {ws ws' : List Str} (h : Line a ps ws) (h' : Line a ps' ws') (hp : ps.Perm ps')
    (he : argsOf ps = argsOf ps') : commandOf (a.name :: ws) = commandOf (a.name :: ws') := by
  by_cases hf : Fits a ps
  · have hf' := fits_perm hp he hf
    obtain ⟨c, hi⟩ : ∃ c, Intends ps a c := ⟨_, (intends_iff ha (line_declared h) hf _).2 rfl⟩
    rw [(C70_command _ c).2 (.inr ⟨a, ha, ws, ps, rfl, h, hf, hi⟩), (C70_command _ c).2 (.inr ⟨a, ha, ws', ps', rfl, h', hf', intends_perm hp he hi⟩)]
  · have hf' : ¬ Fits a ps' := fun h => hf (fits_perm hp.symm he.symm h)
    rw [C70_refused ha h hf, C70_refused ha h' hf']

/-- Though the help says "Pass many times for more log output", `-v` can be there only once, with a number; `serve` alone counts. -/
theorem C70_verbose {a : AppDef} (ha : a ∈ apps) (hs : a ≠ serveApp) {ws : List Str} {c : Cmd} (h : commandOf (a.name :: ws) = .ok c) :
    ∃ ps, Line a ps ws ∧ (ps.filter (about verboseOpt)).length ≤ 1 ∧ ∀ v, Part.value verboseOpt v ∈ ps → ∃ n, IsNumber v n := by
  rcases (C70_command _ c).1 h with ⟨h | h, _⟩ | ⟨b, hb, us, ps, e, hl, hf, _⟩
  · cases h
  · simp only [apps, List.mem_cons, List.not_mem_nil, or_false] at ha
    rcases ha with rfl | rfl | rfl | rfl | rfl | rfl <;> revert h <;> simp [initApp, checkApp, fmtApp, lsApp, serveApp, exportApp]
  · simp only [List.cons.injEq] at e
    obtain ⟨e, rfl⟩ := e
    have hab : a = b := by
      have h1 := find_app ha
      rw [e, find_app hb] at h1
      exact (Option.some.inj h1).symm
    subst hab
    have ho : verboseOpt ∈ a.opts := by
      simp only [apps, List.mem_cons, List.not_mem_nil, or_false] at ha
      rcases ha with rfl | rfl | rfl | rfl | rfl | rfl
      · decide
      · decide
      · decide
      · decide
      · exact absurd rfl hs
      · decide
    exact ⟨ps, hl, hf.once _ ho rfl, fun v hv => hf.number _ v hv rfl⟩

/-- `-vv` and longer is refused by every sub-command but `serve`. -/
theorem C70_repeated {a : AppDef} (ha : a ∈ apps) (hs : a ≠ serveApp) (n : Nat) : commandOf [a.name, '-' :: List.replicate (n + 2) 'v'] = .refused := by
  have ho : verboseOpt ∈ a.opts := by
    simp only [apps, List.mem_cons, List.not_mem_nil, or_false] at ha
    rcases ha with rfl | rfl | rfl | rfl | rfl | rfl
    · decide
    · decide
    · decide
    · decide
    · exact absurd rfl hs
    · decide
  have hl : Line a [.value verboseOpt (List.replicate (n + 1) 'v')] ['-' :: List.replicate (n + 2) 'v'] := by
    have := Line.shortEq (a := a) (fs := []) (cs := []) (o := verboseOpt) (c := 'v') (t := List.replicate (n + 1) 'v') (v := List.replicate (n + 1) 'v') (ps := []) (ws := [])
      .nil ho rfl rfl (by simp [List.replicate_succ]) ⟨0, rfl, by simp [List.replicate_succ]⟩ .nil
    exact this
  refine C70_refused ha hl fun hf => ?_
  obtain ⟨m, hm⟩ := hf.number verboseOpt (List.replicate (n + 1) 'v') (by simp) rfl
  obtain ⟨_, d, hd, e⟩ := hm
  have hv : 'v' ∈ d := by
    rcases e with rfl | e
    · simp [List.replicate_succ]
    · simp [List.replicate_succ] at e
  have := (spells_iff.1 hd).2.1 'v' hv
  revert this
  decide

/-- Help and version: as the first word, or as the first word of a sub-command, whatever follows. -/
theorem C70_help {w : Str} (hw : w ∈ [c!"-h", c!"--help", c!"-V", c!"--version"]) (l : List Str) :
    commandOf (w :: l) = .info ∧ ∀ a ∈ apps, commandOf (a.name :: w :: l) = .info := by
  simp only [List.mem_cons, List.not_mem_nil, or_false] at hw
  refine ⟨?_, ?_⟩
  · rcases hw with rfl | rfl | rfl | rfl <;> rfl
  · intro a ha
    simp only [apps, List.mem_cons, List.not_mem_nil, or_false] at ha
    rcases ha with rfl | rfl | rfl | rfl | rfl | rfl <;> rcases hw with rfl | rfl | rfl | rfl <;> rfl

/-- `art serve -vvv` is as loud as it has letters. -/
theorem C70_counted (n : Nat) : commandOf [c!"serve", '-' :: List.replicate (n + 1) 'v'] = .ok (.serve (n + 1) none 5373) := by
  have ho : (⟨c!"verbosity", some 'v', c!"verbose", false, true, false, none⟩ : OptDef) ∈ serveApp.opts := by decide
  have hlet : ∀ k, Letters serveApp (List.replicate k ⟨c!"verbosity", some 'v', c!"verbose", false, true, false, none⟩) (List.replicate k 'v') := by
    intro k
    induction k with
    | zero => exact .nil
    | succ k ih => exact .cons ⟨ho, rfl, rfl⟩ ih
  have hl := Line.short (ps := []) (ws := []) (by simp [List.replicate_succ]) (hlet (n + 1)) .nil
  have hargs := argsOf_flags (List.replicate (n + 1) ⟨c!"verbosity", some 'v', c!"verbose", false, true, false, none⟩)
  rw [List.append_nil, List.map_replicate] at hl
  rw [List.map_replicate] at hargs
  refine (C70_command _ _).2 (.inr ⟨serveApp, by decide, _, _, rfl, hl, ?_, ?_⟩)
  · refine ⟨fun o h hm => ?_, fun o v h => ?_, by rw [hargs]; simp, fun i p hp hr => ?_, fun i p v _ _ hv => ?_⟩
    · rw [List.filter_replicate]
      split
      · rename_i hx
        simp only [about, beq_iff_eq] at hx
        rw [← hx] at hm
        cases hm
      · simp
    · have := List.eq_of_mem_replicate h
      cases this
    · match i, hp with
      | 0, hp => cases hp; cases hr
      | i + 1, hp => cases hp
    · rw [hargs] at hv
      cases hv
  · have := Intends.serve (ps := List.replicate (n + 1) (Part.flag ⟨c!"verbosity", some 'v', c!"verbose", false, true, false, none⟩)) (w := none) (port := 5373) ho rfl
      ⟨workOpt, by decide, rfl, rfl, .inr ⟨fun x hx => Part.noConfusion (List.eq_of_mem_replicate hx), rfl⟩⟩ (.inl ⟨hargs, rfl⟩)
    rwa [List.count_replicate_self] at this

/-! ## concrete cases -/

/-- The parts of `art ls -lN --spc=0 -t '>=0.5' x`, in words. -/
def exLine : List Str := [c!"-lN", c!"--spc=0", c!"-t", c!">=0.5", c!"x"]

example : commandOf (c!"ls" :: exLine) = .ok (.ls 0 none ⟨some c!"x", c!"name", true, c!"0", c!">=0.5", ⟨true, false, false, false, false, false, false⟩, false, c!"list"⟩ false) := by
  decide +kernel

-- another order, other ways to write the same
example : commandOf [c!"ls", c!"x", c!"--tst", c!">=0.5", c!"-Nls0"] = commandOf (c!"ls" :: exLine) := by decide +kernel

example : Line lsApp [.flag (flagOpt c!"long" (some 'l') c!"long"), .flag (flagOpt c!"name" (some 'N') c!"name"), .value ⟨c!"spc", some 's', c!"spc", true, false, false, some c!">0"⟩ c!"0",
    .value ⟨c!"tst", some 't', c!"tst", true, false, false, some c!">0"⟩ c!">=0.5", .arg c!"x"] exLine :=
  .short (fs := [flagOpt c!"long" (some 'l') c!"long", flagOpt c!"name" (some 'N') c!"name"]) (by simp) (.cons ⟨by decide, rfl, rfl⟩ (.cons ⟨by decide, rfl, rfl⟩ .nil))
    (.longEq (t := c!"0") (by decide) rfl ⟨0, rfl⟩ ⟨0, rfl, by decide⟩
      (.shortSep (fs := []) (cs := []) .nil (by decide) rfl rfl (by unfold Word; decide) (.arg (by unfold Word; decide) .nil)))

-- help, also before words that make no sense
example : commandOf [c!"ls", c!"-V", c!"--nothing"] = .info := (C70_help (by decide) _).2 lsApp (by decide)

-- two arguments for `art ls`, a repeated option, a number that is none, a missing argument
example : commandOf [c!"ls", c!"x", c!"y"] = .refused := by decide +kernel
example : commandOf [c!"fmt", c!"--type", c!"md", c!"--type=md"] = .refused := by decide +kernel
example : commandOf [c!"serve", c!"80a"] = .refused := by decide +kernel
example : commandOf [c!"export", c!"html"] = .refused := by decide +kernel

-- `-v` has a number except with `serve`
example : commandOf [c!"check", c!"-v", c!"2"] = .ok (.check 2 none) := by decide +kernel
example : commandOf [c!"check", c!"-vv"] = .refused := by decide +kernel
example : commandOf [c!"check", c!"-v", c!"1", c!"-v", c!"1"] = .refused := by decide +kernel
example : commandOf [c!"serve", c!"-vv", c!"+8080"] = .ok (.serve 2 none 8080) := by decide +kernel
example : (c!"check" :: [c!"-vv"]) = [checkApp.name, '-' :: List.replicate (0 + 2) 'v'] := rfl

-- after `--` everything is an argument, the text of a flag is dropped
example : commandOf [c!"export", c!"--work-dir=p", c!"--", c!"md", c!"-x"] = .ok (.export 0 (some c!"p") c!"md" c!"-x") := by decide +kernel
example : commandOf [c!"ls", c!"--long=no"] = .ok (.ls 0 none ⟨none, c!"name", true, c!">0", c!">0", ⟨false, false, false, false, false, false, false⟩, false, c!"list"⟩ false) := by
  decide +kernel

end Cli
end Art
