import Verif.Lemmas.PatternReplace

namespace Art
open Spec

/-! ## reading a text that was escaped -/

theorem run_step {st st' : PState} {s s' : Str} (n : Nat) (hs : s ≠ []) (h : st.step s = some (st', s')) : PState.run (n + 1) st s = PState.run n st' s' := by
  cases s with
  | nil => exact absurd rfl hs
  | cons c s =>
    simp only [PState.run, h]
    rfl

theorem run_mono {n : Nat} {st t : PState} {s : Str} (h : PState.run n st s = some t) (k : Nat) : PState.run (n + k) st s = some t := by
  induction n generalizing st s with
  | zero =>
    cases s with
    | nil => simpa [PState.run] using h
    | cons c s => simp [PState.run] at h
  | succ n ih =>
    cases s with
    | nil => simpa [PState.run] using h
    | cons c s =>
      have e : n + 1 + k = (n + k) + 1 := by omega
      rw [e]
      simp only [PState.run] at h ⊢
      cases hs : st.step (c :: s) with
      | none => rw [hs] at h; cases h
      | some x =>
        rw [hs] at h
        exact ih h

/-- One character as `escapePat` writes it. -/
def escOne (c : Char) : Str := if metaChars.contains c then ['\\', c] else [c]

theorem escOne_ne (c : Char) (r : Str) : escOne c ++ r ≠ [] := by
  unfold escOne
  split <;> simp

theorem step_escOne {st : PState} (hx : st.flags.x = false) (c : Char) (r : Str) : st.step (escOne c ++ r) = some (st.push (litPat st.flags.i c), r) := by
  unfold escOne
  by_cases hm : metaChars.contains c = true
  · rw [if_pos hm]
    have h1 : escClass c = none := by
      have : ∀ c ∈ metaChars, escClass c = none := by decide
      exact this c (by simpa using hm)
    have h2 : escChar false c = some c := by unfold escChar; rw [if_pos hm]
    simp [PState.step, hx, h1, h2]
  · rw [if_neg hm]
    have hn : c ∉ metaChars := by simpa using hm
    have ne : ∀ d ∈ metaChars, c ≠ d := fun d hd e => hn (e ▸ hd)
    have n1 := ne '(' (by decide)
    have n2 := ne ')' (by decide)
    have n3 := ne '|' (by decide)
    have n4 := ne '[' (by decide)
    have n5 := ne '.' (by decide)
    have n6 := ne '^' (by decide)
    have n7 := ne '$' (by decide)
    have n8 := ne '{' (by decide)
    have n9 := ne '\\' (by decide)
    have m1 := ne '*' (by decide)
    have m2 := ne '+' (by decide)
    have m3 := ne '?' (by decide)
    simp only [List.cons_append, List.nil_append, PState.step, hx, Bool.false_and, Bool.false_eq_true, if_false]
    split <;> simp_all

/-- The characters one after the other. -/
def PState.pushAll (st : PState) : Str → PState
  | [] => st
  | c :: s => (st.push (litPat st.flags.i c)).pushAll s

theorem run_escape {st : PState} (hx : st.flags.x = false) (w r : Str) (n : Nat) : PState.run (w.length + n) st (escapePat w ++ r) = PState.run n (st.pushAll w) r := by
  induction w generalizing st with
  | nil => simp [escapePat, PState.pushAll]
  | cons c w ih =>
    have e1 : escapePat (c :: w) ++ r = escOne c ++ (escapePat w ++ r) := by
      simp [escapePat, escOne, List.append_assoc]
    have e2 : (c :: w).length + n = (w.length + n) + 1 := by simp; omega
    rw [e1, e2, run_step _ (escOne_ne c _) (step_escOne hx c _)]
    exact ih hx

theorem pushAll_cur (st : PState) (w : Str) : st.pushAll w = { st with cur := (w.map fun c => some (litPat st.flags.i c)).reverse ++ st.cur } := by
  induction w generalizing st with
  | nil => rfl
  | cons c w ih =>
    simp only [PState.pushAll]
    rw [ih]
    simp [PState.push]

theorem length_le_escape (w : Str) : w.length ≤ (escapePat w).length := by
  induction w with
  | nil => simp
  | cons c w ih =>
    have : (escapePat (c :: w)).length = (escOne c).length + (escapePat w).length := by simp [escapePat, escOne]
    have h1 : 1 ≤ (escOne c).length := by unfold escOne; split <;> simp
    simp only [List.length_cons]
    omega

/-- One step of `catPat`. -/
def catStep (r : Pat) (a : Option Pat) : Pat := match a with | some a => .seq a r | none => r

theorem catPat_append (l l' : List (Option Pat)) : catPat (l ++ l') = l'.foldl catStep (catPat l) := by
  unfold catPat
  rw [List.foldl_append]
  rfl

theorem foldl_lits (i : Bool) (w : Str) (t : Pat) : ((w.map fun c => some (litPat i c)).reverse).foldl catStep t = w.foldr (fun c r => .seq (litPat i c) r) t := by
  rw [List.foldl_reverse, List.foldr_map]
  rfl

theorem eqv_lits {U : CharData} (i : Bool) (w : Str) (t : Pat) : Pat.Eqv U (w.foldr (fun c r => .seq (litPat i c) r) t) (.seq (litsP i w) t) := by
  induction w with
  | nil => exact (Pat.eqv_eps_seq t).symm
  | cons c w ih => exact (Pat.eqv_seq (Pat.Eqv.refl _) ih).trans (Pat.eqv_assoc _ _ _).symm

/-! ## the line with the name -/

/-- What comes after the prefix. -/
def lineTail : Str := c! r"#\s*(" ++ nameValidStr ++ c! r")\s*$"

def tailEnd : PState := ((({ flags := { i := true } } : PState).run lineTail.length lineTail)).getD {}

theorem tail_run (X : List (Option Pat)) : ({ flags := { i := true }, cur := X } : PState).run lineTail.length lineTail = some { tailEnd with cur := tailEnd.cur ++ X } := by
  rfl

theorem tailEnd_rest : tailEnd = { flags := { i := true }, caps := 1, names := [], alts := [], cur := tailEnd.cur, stack := [] } := by decide +kernel

theorem tailEnd_cur : (catPat tailEnd.cur).norm = (Pat.seq nameLineP (.eol false)).norm := by decide +kernel

theorem run_open (k : Nat) (r : Str) : PState.run (k + 2) {} (c!"(?i)^" ++ r) = PState.run k { flags := { i := true }, cur := [some (.bol false), none] } r := rfl

theorem run_i (k : Nat) (r : Str) : PState.run (k + 1) {} (c!"(?i)" ++ r) = PState.run k { flags := { i := true }, cur := [none] } r := rfl

theorem parse_nameLine (pre : Str) :
    Rx.parse (nameLineText pre) = some ⟨.seq (.bol false) (pre.foldr (fun c r => .seq (litPat true c) r) (catPat tailEnd.cur)), []⟩ := by
  have e : nameLineText pre = c!"(?i)^" ++ (escapePat pre ++ lineTail) := by
    simp only [nameLineText, lineTail, List.append_assoc]
  have hr : PState.run (pre.length + lineTail.length + 2) {} (nameLineText pre) =
      some { tailEnd with cur := tailEnd.cur ++ ((pre.map fun c => some (litPat true c)).reverse ++ [some (.bol false), none]) } := by
    rw [e, run_open, run_escape rfl, pushAll_cur]
    exact tail_run _
  have hl : (nameLineText pre).length = (pre.length + lineTail.length + 2) + ((nameLineText pre).length - (pre.length + lineTail.length + 2)) := by
    have := length_le_escape pre
    have h5 : (nameLineText pre).length = 5 + ((escapePat pre).length + lineTail.length) := by rw [e]; simp; omega
    omega
  unfold Rx.parse
  rw [hl, run_mono hr]
  have hs : tailEnd.stack = [] := by rw [tailEnd_rest]
  have ha : tailEnd.alts = [] := by rw [tailEnd_rest]
  have hn : tailEnd.names = [] := by rw [tailEnd_rest]
  simp only [Option.bind_some, PState.finish, hs, ha, hn, if_true, altsEnd, Option.map_some]
  rw [catPat_append, List.foldl_append, foldl_lits]
  rfl

theorem captures_nameLine {U : CharData} {fold : Char → Char} (h : CharsOk U fold) (pre : Str) :
    ∃ r, Rx.parse (nameLineText pre) = some r ∧ ∀ s, r.captures U s = ((nameLineRe fold pre).full s).map fun c => (s, [], c) := by
  refine ⟨_, parse_nameLine pre, fun s => ?_⟩
  have e : Pat.Eqv U (.seq (.bol false) (pre.foldr (fun c r => .seq (litPat true c) r) (catPat tailEnd.cur)))
      (.seq (.bol false) (.seq (.seq (litsP true pre) nameLineP) (.eol false))) := by
    refine Pat.eqv_seq (Pat.Eqv.refl _) ((eqv_lits true pre _).trans ?_)
    exact (Pat.eqv_seq (Pat.Eqv.refl _) (Pat.eqv_of_norm tailEnd_cur)).trans (Pat.eqv_assoc _ _ _).symm
  have hf : (Pat.seq (litsP true pre) nameLineP).free = true := by
    simp only [Pat.free, free_litsP, Bool.true_and]
    decide
  rw [Rx.captures, e.find, Pat.find_full hf]
  simp only [Pat.toRe, toRe_litsF h, toRe_nameLineP h]
  rfl

/-! ## a word -/

theorem escapePat_plain {w : Str} (h : PlainText w) : escapePat w = w := by
  unfold PlainText at h
  induction w with
  | nil => rfl
  | cons c w ih =>
    have hc : c ∉ metaChars := h c (by simp)
    have : escapePat (c :: w) = escOne c ++ escapePat w := by simp [escapePat, escOne]
    rw [this, ih fun d hd => h d (by simp [hd])]
    simp [escOne, hc]

theorem rx_word (w : Str) : Rx.parse (c!"(?i)" ++ escapePat w) = some ⟨litsP true w, []⟩ := by
  have hr : PState.run (w.length + 0 + 1) {} (c!"(?i)" ++ escapePat w) =
      some { flags := { i := true }, cur := (w.map fun c => some (litPat true c)).reverse ++ [none] } := by
    have := run_escape (st := { flags := { i := true }, cur := [none] }) rfl w [] 0
    rw [List.append_nil, pushAll_cur] at this
    rw [run_i]
    exact this
  have hl : (c!"(?i)" ++ escapePat w).length = (w.length + 0 + 1) + (3 + ((escapePat w).length - w.length)) := by
    have := length_le_escape w
    simp
    omega
  unfold Rx.parse
  rw [hl, run_mono hr]
  simp only [Option.bind_some, PState.finish, if_true, altsEnd, Option.map_some]
  rw [catPat_append]
  have : catPat (w.map fun c => some (litPat true c)).reverse = litsP true w := foldl_lits true w .eps
  rw [this]
  rfl

theorem run_group (k : Nat) (r : Str) : PState.run (k + 1) {} (c!"(?:" ++ r) = PState.run k (({} : PState).openGroup none {}) r := rfl

theorem parse_group {w : Str} (hw : w ≠ []) : Rx.parse (c!"(?:" ++ escapePat w ++ c!")") = some ⟨.seq (litsP false w) .eps, []⟩ := by
  have hr : PState.run (w.length + 1 + 1) {} (c!"(?:" ++ (escapePat w ++ c!")")) = some { cur := [some (litsP false w)] } := by
    rw [run_group, run_escape rfl, pushAll_cur]
    have h1 : catPat ((w.map fun c => some (litPat false c)).reverse ++ []) = litsP false w := by
      rw [List.append_nil]
      exact foldl_lits false w .eps
    have h2 : ((w.map fun c => some (litPat false c)).reverse ++ []).all Option.isNone = false := by
      cases w with
      | nil => exact absurd rfl hw
      | cons c w => simp
    simp only [PState.run, PState.step, PState.openGroup, PState.closeGroup, Bool.false_and, Bool.false_eq_true, if_false, h2, Bool.and_false, altsEnd, if_true, h1]
    rfl
  have hl : (c!"(?:" ++ escapePat w ++ c!")").length = (w.length + 1 + 1) + (2 + ((escapePat w).length - w.length)) := by
    have := length_le_escape w
    simp
    omega
  unfold Rx.parse
  rw [hl, List.append_assoc, run_mono hr]
  rfl

theorem parseI_word (w : Str) : Rx.parseI (escapePat w) = some ⟨litsP true w, []⟩ := by
  have hr : PState.run w.length { flags := { i := true } } (escapePat w) = some { flags := { i := true }, cur := (w.map fun c => some (litPat true c)).reverse } := by
    have := run_escape (st := { flags := { i := true } }) rfl w [] 0
    rw [List.append_nil, pushAll_cur] at this
    simpa [PState.run] using this
  have hl : (escapePat w).length = w.length + ((escapePat w).length - w.length) := by
    have := length_le_escape w
    omega
  unfold Rx.parseI
  rw [hl, run_mono hr]
  simp only [Option.bind_some, PState.finish, if_true, altsEnd, Option.map_some]
  have : catPat (w.map fun c => some (litPat true c)).reverse = litsP true w := foldl_lits true w .eps
  rw [this]

theorem run_groupI (k : Nat) (r : Str) : PState.run (k + 1) { flags := { i := true } } (c!"(?:" ++ r) =
    PState.run k (({ flags := { i := true } } : PState).openGroup none { i := true }) r := rfl

theorem parseI_group {w : Str} (hw : w ≠ []) : Rx.parseI (c!"(?:" ++ escapePat w ++ c!")") = some ⟨.seq (litsP true w) .eps, []⟩ := by
  have hr : PState.run (w.length + 1 + 1) { flags := { i := true } } (c!"(?:" ++ (escapePat w ++ c!")")) = some { flags := { i := true }, cur := [some (litsP true w)] } := by
    rw [run_groupI, run_escape rfl, pushAll_cur]
    have h1 : catPat ((w.map fun c => some (litPat true c)).reverse ++ []) = litsP true w := by
      rw [List.append_nil]
      exact foldl_lits true w .eps
    have h2 : ((w.map fun c => some (litPat true c)).reverse ++ []).all Option.isNone = false := by
      cases w with
      | nil => exact absurd rfl hw
      | cons c w => simp
    simp only [PState.run, PState.step, PState.openGroup, PState.closeGroup, Bool.false_and, Bool.false_eq_true, if_false, h2, Bool.and_false, altsEnd, if_true, h1]
    rfl
  have hl : (c!"(?:" ++ escapePat w ++ c!")").length = (w.length + 1 + 1) + (2 + ((escapePat w).length - w.length)) := by
    have := length_le_escape w
    simp
    omega
  unfold Rx.parseI
  rw [hl, List.append_assoc, run_mono hr]
  rfl

end Art
