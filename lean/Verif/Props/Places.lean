import Verif.Spec.Places
import Verif.Lemmas.Written

/-!
# Property C99: what is shown as implemented is what the code refers to
-/

namespace Art.Places
open Spec

variable {L : Libs} {readToml : Str → Option SettingsRaw} {hash : ArtifactIm → HashIm} {ncpu : Nat} {fs : FS} {base : FilePath}
  {c : Categorized} {p : Project}

/-- What is sent for references, up to the first that ends the thread. -/
def sendRefs (file : FilePath) : List (Nat × Str × Option Str) → List Loc × Bool
  | [] => ([], false)
  | e :: l => match toLoc file e with
    | .ok x => (x :: (sendRefs file l).1, (sendRefs file l).2)
    | _ => ([], true)

theorem sendRefs_append (file : FilePath) : ∀ l l', sendRefs file (l ++ l') =
    if (sendRefs file l).2 then sendRefs file l else ((sendRefs file l).1 ++ (sendRefs file l').1, (sendRefs file l').2)
  | [], l' => by simp [sendRefs]
  | e :: l, l' => by
    cases ht : toLoc file e with
    | ok x =>
      simp only [List.cons_append, sendRefs, ht, sendRefs_append file l l']
      by_cases h : (sendRefs file l).2 = true <;> simp [h]
    | err => simp [sendRefs, ht]
    | panic => simp [sendRefs, ht]

theorem sendMatches_eq (file : FilePath) (line : Nat) (sk : Bool) (ms : List Match) (toks : List SrcTok) (h : ms.map srcTok = toks.map some) :
    sendMatches file line sk ms = ((sendRefs file (unskip sk (toks.map (fun k => (line, k))))).1,
      if (sendRefs file (unskip sk (toks.map (fun k => (line, k))))).2 then none else some (skAfter sk (toks.map (fun k => (line, k))))) := by
  induction ms generalizing sk toks with
  | nil =>
    cases toks with
    | nil => rfl
    | cons => simp at h
  | cons m ms ih =>
    cases toks with
    | nil => simp at h
    | cons k toks =>
      simp only [List.map_cons, List.cons.injEq] at h
      rw [sendMatches, h.1]
      cases k with
      | skip => simp only [List.map_cons, unskip, skAfter]; exact ih _ _ h.2
      | done => simp only [List.map_cons, unskip, skAfter]; exact ih _ _ h.2
      | ref n s =>
        simp only [List.map_cons, unskip, skAfter]
        cases sk with
        | true => simp only [if_true]; exact ih _ _ h.2
        | false =>
          simp only [Bool.false_eq_true, if_false, sendRefs, toLoc]
          cases hn : Name.fromStr n with
          | ok name =>
            simp only []
            rw [ih _ _ h.2]
          | err e => rfl
          | panic => rfl

theorem sendLines_eq (file : FilePath) (n : Nat) (sk : Bool) (ls : List Str) : sendLines file n sk ls = sendRefs file (unskip sk (eventsFrom n ls)) := by
  induction ls generalizing n sk with
  | nil => rfl
  | cons l ls ih =>
    have e : eventsFrom n (l :: ls) = (l.tails.filterMap tokHere).map (fun k => (n, k)) ++ eventsFrom (n + 1) ls := by
      simp [eventsFrom]
    rw [e, unskip_append, sendRefs_append, sendLines, sendMatches_eq file n sk _ _ (findIter_toks l)]
    by_cases h : (sendRefs file (unskip sk ((l.tails.filterMap tokHere).map (fun k => (n, k))))).2 = true
    · simp only [h, if_true]
      rw [← h]
    · simp only [h, if_false, Bool.false_eq_true]
      rw [ih]

theorem mem_sendRefs {file : FilePath} {x : Loc} : ∀ {l : List (Nat × Str × Option Str)}, x ∈ (sendRefs file l).1 ↔
    ∃ before e after, l = before ++ e :: after ∧ (∀ y ∈ before, ∃ m, Name.fromStr y.2.1 = .ok m) ∧ toLoc file e = .ok x
  | [] => by simp [sendRefs]
  | e :: l => by
    unfold sendRefs
    constructor
    · intro h
      split at h
      · rename_i y hy
        rcases List.mem_cons.1 h with rfl | h
        · exact ⟨[], e, l, rfl, by simp, hy⟩
        · obtain ⟨b, e', a, rfl, h1, h2⟩ := mem_sendRefs.1 h
          refine ⟨e :: b, e', a, rfl, fun z hz => ?_, h2⟩
          rcases List.mem_cons.1 hz with rfl | hz
          · unfold toLoc at hy
            split at hy
            · rename_i m hm; exact ⟨m, hm⟩
            · cases hy
          · exact h1 z hz
      · cases h
    · rintro ⟨b, e', a, h0, h1, h2⟩
      cases b with
      | nil =>
        simp only [List.nil_append, List.cons.injEq] at h0
        rw [h0.1, h2]; exact List.mem_cons_self
      | cons z b =>
        simp only [List.cons_append, List.cons.injEq] at h0
        obtain ⟨rfl, rfl⟩ := h0
        obtain ⟨m, hm⟩ := h1 e (by simp)
        have : toLoc file e = .ok (⟨file, e.1⟩, m, e.2.2.map SubName.mk) := by unfold toLoc; rw [hm]
        rw [this]
        exact List.mem_cons_of_mem _ (mem_sendRefs.2 ⟨b, e', a, rfl, fun y hy => h1 y (by simp [hy]), h2⟩)

theorem tok_unique {tok : Str → Option SrcTok} (h : ∀ u k, tok u = some k ↔ TokAt u k) : tok = tokHere := by
  funext u
  apply Option.ext
  intro k
  rw [h, C09_token]

/-- What is sent for a file. -/
theorem mem_codeSent {f : FilePath} {x : Loc} : x ∈ (codeSent L fs f).items ↔ ∃ t, SourceText fs f t ∧ x ∈ (sendRefs f (reported (events tokHere t))).1 := by
  have hsend : ∀ t, sendLines f 0 false (lines t) = sendRefs f (reported (events tokHere t)) := by
    intro t
    rw [sendLines_eq, unskip_eq_reported]; rfl
  unfold codeSent
  split
  · rename_i t h
    simp only [hsend]
    constructor
    · intro hx; exact ⟨t, .inl h, hx⟩
    · rintro ⟨t', h' | ⟨i, h'⟩, hx⟩ <;> rw [h] at h' <;> cases h'
      exact hx
  · rename_i t i h
    simp only [hsend]
    constructor
    · intro hx; exact ⟨t, .inr ⟨i, h⟩, hx⟩
    · rintro ⟨t', h' | ⟨i, h'⟩, hx⟩ <;> rw [h] at h' <;> cases h'
      exact hx
  · rename_i h1 h2
    constructor
    · intro hx; cases hx
    · rintro ⟨t', h' | ⟨i, h'⟩, _⟩
      · exact absurd h' (h1 t')
      · exact absurd h' (h2 t' i)

/-- A reference is sent exactly if it is one. -/
theorem refAt_iff {s : Settings} {n : Name} {sub : Option SubName} {loc : CodeLoc} : RefAt fs s n sub loc ↔
    ∃ x, (∃ f ∈ walkCode fs s, x ∈ (codeSent L fs f).items) ∧ SameSlot x (loc, n, sub) ∧ x.1 = loc := by
  constructor
  · rintro ⟨hf, t, ht, tok, htok, b, w, u, a, h1, h2, ⟨m, h3, h4⟩, h5⟩
    rw [tok_unique htok] at h1
    refine ⟨(loc, m, u.map SubName.mk), ⟨loc.file, hf, mem_codeSent.2 ⟨t, ht, mem_sendRefs.2 ⟨b, _, a, h1, h2, ?_⟩⟩⟩, ⟨h4, ?_⟩, rfl⟩
    · unfold toLoc
      simp only [h3]
    · rw [← h5]
      simp [Function.comp_def]
  · rintro ⟨x, ⟨f, hf, hx⟩, ⟨h1, h2⟩, rfl⟩
    obtain ⟨t, ht, hx⟩ := mem_codeSent.1 hx
    obtain ⟨b, e, a, h3, h4, h5⟩ := mem_sendRefs.1 hx
    unfold toLoc at h5
    split at h5
    · rename_i m hm
      cases h5
      refine ⟨hf, t, ht, tokHere, C09_token, b, e.2.1, e.2.2, a, h3, h4, ⟨m, hm, h1⟩, ?_⟩
      rw [← h2]
      simp [Function.comp_def]
    · cases h5

theorem get?_sortCode {m : IMap Name ImplCode} (h : IMap.Nodup m) (n : Name) :
    IMap.get? ((sortOn (fun x => x.1.keyStr) m).map (fun x => (x.1, x.2.sort))) n = (IMap.get? m n).map ImplCode.sort := by
  have e : ∀ l : IMap Name ImplCode, IMap.get? (l.map (fun x => (x.1, x.2.sort))) n = (IMap.get? l n).map ImplCode.sort := by
    intro l
    induction l with
    | nil => rfl
    | cons x l ih =>
      simp only [List.map_cons, IMap.get?]
      split
      · rfl
      · exact ih
  rw [e, IMap.get?_perm (sortOn_perm _ m) ((IMap.nodup_perm (sortOn_perm _ m)).2 h)]

theorem get?_sortSecondary {m : IMap SubName CodeLoc} (h : IMap.Nodup m) (x : SubName) : IMap.get? (sortSecondary m) x = IMap.get? m x :=
  IMap.get?_perm (sortOn_perm _ m) ((IMap.nodup_perm (sortOn_perm _ m)).2 h) x

/-- **The places in the project are those of the references in the code**, for each artifact and each subname, whether the artifact exists or not. -/
theorem C99_places (h : ReadsProject L readToml hash ncpu fs base (.ok (c, p))) (n : Name) (sub : Option SubName) (loc : CodeLoc) :
    lookup p.codeImpls n sub = some loc ↔ RefAt fs p.settings n sub loc := by
  obtain ⟨raw, path, s, r, arts, ls, _, _, ha, he, hl, _, rfl, _⟩ := reads_parts h
  have hj := ((noError_parts ha).1 he).2.1
  obtain ⟨hn1, hn2⟩ := C10_no_empty r.locs
  have e : lookup (Project.sort ⟨s, (joinLocations r.locs).1, arts⟩).codeImpls n sub = lookup (joinLocations r.locs).1 n sub := by
    unfold lookup
    show (match IMap.get? ((sortOn (fun x => x.1.keyStr) (joinLocations r.locs).1).map (fun x => (x.1, x.2.sort))) n with | none => none | some c => _) = _
    rw [get?_sortCode hn1]
    cases hg : IMap.get? (joinLocations r.locs).1 n with
    | none => rfl
    | some k =>
      cases sub with
      | none => rfl
      | some x =>
        obtain ⟨n', _, hm⟩ := (IMap.get?_eq_some_iff hn1).1 hg
        exact get?_sortSecondary (hn2 n' k hm).2 x
  rw [e, C10_exact _ hj, refAt_iff (L := L)]
  simp only [ha.locs.mem_iff, List.mem_flatMap]
  rfl

/-- Nothing is referred to twice. -/
theorem C99_once (h : ReadsProject L readToml hash ncpu fs base (.ok (c, p))) {n : Name} {sub : Option SubName} {loc loc' : CodeLoc}
    (h1 : RefAt fs p.settings n sub loc) (h2 : RefAt fs p.settings n sub loc') : loc = loc' := by
  rw [← C99_places h] at h1 h2
  exact Option.some.inj (h1.symm.trans h2)

/-- **What is shown as implemented is what the code refers to**: an artifact that is not marked as done is shown with exactly the places at which the code refers to it and to its
subnames; and it is shown as not implemented exactly if there are none. -/
theorem C99_shown (h : ReadsProject L readToml hash ncpu fs base (.ok (c, p))) {x : Name × Artifact} (hx : x ∈ p.artifacts) (hd : ∀ d, x.2.impl ≠ .done d) :
    (∀ sub loc, place x.2.impl sub = some loc ↔ RefAt fs p.settings x.1 sub loc) ∧
    (x.2.impl = .notImpl ↔ ∀ sub loc, ¬ RefAt fs p.settings x.1 sub loc) := by
  have hpl := C99_places h
  obtain ⟨raw, path, s, r, arts, ls, _, _, ha, he, hl, _, rfl, _⟩ := reads_parts h
  obtain ⟨hn1, hn2⟩ := C10_no_empty r.locs
  obtain ⟨y, hy, rfl⟩ := List.mem_map.1 hx
  have hy := (mem_sortOn _).1 hy
  have sp := hl.spec (joinArtifacts_input r.arts)
  obtain ⟨im, as⟩ := sp.2.2.2.2.2.1 y.2 (List.mem_map.2 ⟨y, hy, rfl⟩)
  have hname : y.2.name = y.1 := sp.2.1 y hy
  have himpl := as.impl
  have hcode : ∀ n, IMap.get? (Project.sort ⟨s, (joinLocations r.locs).1, arts⟩).codeImpls n = (IMap.get? (joinLocations r.locs).1 n).map ImplCode.sort :=
    fun n => get?_sortCode hn1 n
  have key1 : ∀ sub, place y.2.sort.impl sub = lookup (Project.sort ⟨s, (joinLocations r.locs).1, arts⟩).codeImpls y.1 sub ∧
      (y.2.sort.impl = .notImpl ↔ IMap.get? (joinLocations r.locs).1 y.1 = none) := by
    intro sub
    have hs : y.2.sort.impl = y.2.impl.sort := rfl
    have hd' : ∀ d, y.2.impl.sort ≠ .done d := hd
    unfold lookup
    rw [hcode, hs, himpl, hname]
    rw [himpl, hname] at hd'
    unfold implOf at hd' ⊢
    cases hdn : im.done with
    | some d => rw [hdn] at hd'; exact absurd rfl (hd' d)
    | none =>
      cases hg : IMap.get? (joinLocations r.locs).1 y.1 with
      | none => cases sub <;> simp [place, Impl.sort]
      | some k => cases sub <;> simp [place, Impl.sort]
  refine ⟨fun sub loc => ?_, ?_⟩
  · rw [← hpl]
    show place y.2.sort.impl sub = some loc ↔ _
    rw [(key1 sub).1]
  · show y.2.sort.impl = .notImpl ↔ _
    rw [(key1 none).2]
    simp only [← hpl]
    unfold lookup
    simp only [hcode]
    cases hg : IMap.get? (joinLocations r.locs).1 y.1 with
    | none => simp
    | some k =>
      simp only [Option.map_some, reduceCtorEq, false_iff]
      obtain ⟨n', _, hm⟩ := (IMap.get?_eq_some_iff hn1).1 hg
      obtain ⟨hne, hnd⟩ := hn2 n' k hm
      intro hall
      rcases hne with hp | hs
      · obtain ⟨loc, hloc⟩ := Option.isSome_iff_exists.1 hp
        exact hall none loc hloc
      · obtain ⟨z, hz⟩ := List.exists_mem_of_ne_nil _ hs
        exact hall (some z.1) z.2 ((get?_sortSecondary hnd z.1).trans (IMap.get?_of_mem hnd hz))

end Art.Places
