import Verif.Spec.Entries
import Verif.Props.Origin

/-!
# Property C98: what TOML and JSON files say, and that artifacts can be lost in them without a word
-/

namespace Art.Entries
open Spec Origin

variable {L : Libs} {readToml : Str → Option SettingsRaw} {hash : ArtifactIm → HashIm} {ncpu : Nat} {fs : FS} {base f : FilePath} {s : Str}
  {c : Categorized} {p : Project}

theorem field_iff {d : ArtDoc} {r : ArtifactRaw} : artDocDe d = .ok r ↔ Field d r := by
  obtain ⟨dd, dp, dt⟩ := d
  obtain ⟨rd, rp, rt⟩ := r
  unfold artDocDe Field textRawDe
  cases dp with
  | none =>
    cases dt <;> simp [ArtifactRaw.mk.injEq, eq_comm, and_comm]
  | some q =>
    cases hq : namesRawDe q with
    | ok l => cases dt <;> simp [hq, ArtifactRaw.mk.injEq, eq_comm, and_comm]
    | err e => simp [hq]
    | panic => simp [hq]

/-- Reading the entries one by one is reading each on its own and then keeping them in a map. -/
theorem mapDe_iff : ∀ {l : List (Str × ArtDoc)} {o out : IMap Name ArtifactRaw},
    mapDe l o = .ok out ↔ ∃ es, List.Forall₂ Entry l es ∧ out = es.foldl (fun m p => IMap.insert m p.1 p.2) o
  | [], o, out => by simp [mapDe, eq_comm]
  | (s, d) :: l, o, out => by
    unfold mapDe
    constructor
    · intro h
      split at h
      · rename_i n hn
        simp only [Res.bind_eq_ok] at h
        obtain ⟨r, h1, h2⟩ := h
        obtain ⟨es, h3, rfl⟩ := mapDe_iff.1 h2
        exact ⟨(n, r) :: es, .cons ⟨hn, field_iff.1 h1⟩ h3, rfl⟩
      · cases h
      · cases h
    · rintro ⟨es, h, rfl⟩
      cases h with
      | @cons _ e _ es h1 h2 =>
        rw [show Name.fromStr s = .ok e.1 from h1.1]
        simp only [Res.bind_eq_ok]
        exact ⟨e.2, field_iff.2 h1.2, mapDe_iff.2 ⟨es, h2, rfl⟩⟩

theorem insert_first {m : IMap Name ArtifactRaw} {n : Name} {r : ArtifactRaw} {x : Name × ArtifactRaw} (h : x ∈ IMap.insert m n r) :
    (∃ y ∈ m, y.1 = x.1) ∨ (x.1 = n ∧ ∀ y ∈ m, key y.1 ≠ key n) := by
  induction m with
  | nil => simp only [IMap.insert, List.mem_singleton] at h; subst h; exact .inr ⟨rfl, by simp⟩
  | cons z m ih =>
    obtain ⟨a, b⟩ := z
    unfold IMap.insert at h
    split at h
    · rcases List.mem_cons.1 h with rfl | h
      · exact .inl ⟨(a, b), by simp, rfl⟩
      · exact .inl ⟨x, by simp [h], rfl⟩
    · rename_i hk
      rcases List.mem_cons.1 h with rfl | h
      · exact .inl ⟨(a, b), by simp, rfl⟩
      · rcases ih h with ⟨y, hy, e⟩ | ⟨e, hn⟩
        · exact .inl ⟨y, by simp [hy], e⟩
        · refine .inr ⟨e, fun y hy => ?_⟩
          rcases List.mem_cons.1 hy with rfl | hy
          · exact hk
          · exact hn y hy

theorem insert_keys {m : IMap Name ArtifactRaw} {n k : Name} {r : ArtifactRaw} : (∃ y ∈ IMap.insert m n r, key y.1 = key k) ↔ key n = key k ∨ ∃ y ∈ m, key y.1 = key k := by
  rw [← IMap.contains_iff, ← IMap.contains_iff]
  simp only [IMap.contains, IMap.get?_insert]
  split <;> simp [*]

theorem fold_first : ∀ {es : List (Name × ArtifactRaw)} {m : IMap Name ArtifactRaw} {x : Name × ArtifactRaw},
    x ∈ es.foldl (fun m p => IMap.insert m p.1 p.2) m → (∃ y ∈ m, y.1 = x.1) ∨ (FirstSpelled es x.1 ∧ ∀ y ∈ m, key y.1 ≠ key x.1)
  | [], m, x, h => .inl ⟨x, h, rfl⟩
  | e :: es, m, x, h => by
    rcases fold_first (es := es) h with ⟨y, hy, e1⟩ | ⟨⟨a, r, b, rfl, hn⟩, hm⟩
    · rcases insert_first hy with ⟨z, hz, e2⟩ | ⟨e2, h3⟩
      · exact .inl ⟨z, hz, e2.trans e1⟩
      · have : e.1 = x.1 := e2.symm.trans e1
        exact .inr ⟨⟨[], e.2, es, by rw [← this]; rfl, by simp⟩, by rw [← this]; exact h3⟩
    · have hno : ¬ ∃ y ∈ IMap.insert m e.1 e.2, key y.1 = key x.1 := fun ⟨y, hy, hk⟩ => hm y hy hk
      rw [insert_keys] at hno
      push Not at hno
      refine .inr ⟨⟨e :: a, r, b, rfl, fun z hz => ?_⟩, hno.2⟩
      rcases List.mem_cons.1 hz with rfl | hz
      · exact hno.1
      · exact hn z hz

theorem first_unique : ∀ {es : List (Name × ArtifactRaw)} {n n' : Name}, FirstSpelled es n → FirstSpelled es n' → key n = key n' → n = n'
  | [], _, _, ⟨a, _, _, e, _⟩, _, _ => by simp at e
  | e :: es, n, n', ⟨a, r, b, h1, h2⟩, ⟨a', r', b', h1', h2'⟩, hk => by
    cases a with
    | nil =>
      cases a' with
      | nil =>
        simp only [List.nil_append, List.cons.injEq] at h1 h1'
        have := h1.1.symm.trans h1'.1
        exact (Prod.mk.inj this).1
      | cons z a' =>
        simp only [List.nil_append, List.cons_append, List.cons.injEq] at h1 h1'
        refine absurd ?_ (h2' z (by simp))
        rw [← h1'.1, h1.1]; exact hk
    | cons z a =>
      cases a' with
      | nil =>
        simp only [List.nil_append, List.cons_append, List.cons.injEq] at h1 h1'
        refine absurd ?_ (h2 z (by simp))
        rw [← h1.1, h1'.1]; exact hk.symm
      | cons z' a' =>
        simp only [List.cons_append, List.cons.injEq] at h1 h1'
        exact first_unique ⟨a, r, b, h1.2, fun y hy => h2 y (by simp [hy])⟩ ⟨a', r', b', h1'.2, fun y hy => h2' y (by simp [hy])⟩ hk

theorem last_iff {es : List (Name × ArtifactRaw)} {n : Name} {r : ArtifactRaw} :
    LastSays es n r ↔ (es.reverse.find? (fun p => decide (key p.1 = key n))).map (·.2) = some r := by
  rw [Option.map_eq_some_iff]
  constructor
  · rintro ⟨a, n', b, rfl, h1, h2⟩
    refine ⟨(n', r), ?_, rfl⟩
    rw [List.reverse_append, List.reverse_cons, List.find?_append, List.find?_append, List.find?_eq_none.2]
    · simp [h1]
    · intro x hx
      simpa using h2 x (List.mem_reverse.1 hx)
  · rintro ⟨⟨n', r'⟩, h, rfl⟩
    obtain ⟨h1, as, bs, h2, h3⟩ := List.find?_eq_some_iff_append.1 h
    refine ⟨bs.reverse, n', as.reverse, ?_, by simpa using h1, fun e he => by simpa using h3 e (List.mem_reverse.1 he)⟩
    rw [← List.reverse_reverse es, h2]
    simp

/-- Keeping the entries in a map leaves the first spelling and the last value of each. -/
theorem left_collect (es : List (Name × ArtifactRaw)) : Left es (IMap.collect es) := by
  have hnd : IMap.Nodup (IMap.collect es) := IMap.nodup_collect es
  have hget : ∀ n, IMap.get? (IMap.collect es) n = (es.reverse.find? (fun p => decide (key p.1 = key n))).map (·.2) := by
    intro n
    unfold IMap.collect
    rw [IMap.get?_foldl_insert]
    simp [IMap.get?]
  have hfirst : ∀ x ∈ IMap.collect es, FirstSpelled es x.1 := by
    intro x hx
    rcases fold_first hx with ⟨y, hy, _⟩ | h
    · cases hy
    · exact h.1
  refine ⟨hnd, fun x => ⟨fun hx => ⟨hfirst x hx, last_iff.2 ?_⟩, fun ⟨h1, h2⟩ => ?_⟩⟩
  · rw [← hget]; exact IMap.get?_of_mem hnd hx
  · rw [last_iff, ← hget, IMap.get?_eq_some_iff hnd] at h2
    obtain ⟨n', hk, hm⟩ := h2
    have : n' = x.1 := first_unique (hfirst _ hm) h1 hk
    subst this
    exact hm

theorem left_unique {es : List (Name × ArtifactRaw)} {o o' : IMap Name ArtifactRaw} (h : Left es o) (h' : Left es o') : o.Perm o' := by
  refine (List.perm_ext_iff_of_nodup (List.Nodup.of_map _ h.1) (List.Nodup.of_map _ h'.1)).2 fun x => ?_
  rw [h.2, h'.2]

/-- **A document is read exactly if each of its entries can be, and then what is left of the entries is read.** Two entries whose names differ only in case are no
mistake. -/
theorem C98_reads (l : List (Str × ArtDoc)) (o : IMap Name ArtifactRaw) :
    (∃ out, mapDe l [] = .ok out ∧ out.Perm o) ↔ ∃ es, List.Forall₂ Entry l es ∧ Left es o := by
  constructor
  · rintro ⟨out, h, hp⟩
    obtain ⟨es, h1, rfl⟩ := mapDe_iff.1 h
    have hl := left_collect es
    refine ⟨es, h1, (IMap.nodup_perm hp).1 hl.1, fun x => ?_⟩
    rw [← hl.2 x, ← hp.mem_iff]; rfl
  · rintro ⟨es, h1, h2⟩
    exact ⟨_, mapDe_iff.2 ⟨es, h1, rfl⟩, left_unique (left_collect es) h2⟩

theorem stops_err {α β : Type} {e : LoadErr} {x : Option NameErr} (h : Stops (.err e : Res LoadErr α) x) : Stops (.err e : Res LoadErr β) x := by
  cases x with
  | none => cases h
  | some e' => cases h; exact rfl

theorem stops_panic {α β : Type} {x : Option NameErr} (h : Stops (.panic : Res LoadErr α) x) : Stops (.panic : Res LoadErr β) x := by
  cases x with
  | none => exact rfl
  | some e' => cases h

theorem bad_iff {d : ArtDoc} {x : Option NameErr} : Stops (artDocDe d) x ↔
    ∃ q, d.partof = some q ∧ (match x with | some e => namesRawDe q = .err e | none => namesRawDe q = .panic) := by
  obtain ⟨dd, dp, dt⟩ := d
  unfold artDocDe
  cases dp with
  | none => cases x <;> simp [Stops]
  | some q => cases hq : namesRawDe q <;> cases x <;> simp [Stops, hq]

/-- **Otherwise the first entry that cannot be read decides**: its error is reported, or the thread ends. -/
theorem C98_fails (l : List (Str × ArtDoc)) (x : Option NameErr) (o : IMap Name ArtifactRaw) :
    Stops (mapDe l o) x ↔ FirstBad l x := by
  induction l generalizing o with
  | nil =>
    constructor
    · intro h; cases x <;> cases h
    · rintro ⟨g, s, r, seen, e, _⟩; simp at e
  | cons a l ih =>
    obtain ⟨s, d⟩ := a
    have hcons : ∀ {e}, Entry (s, d) e → (FirstBad ((s, d) :: l) x ↔ FirstBad l x) := by
      intro e he
      constructor
      · rintro ⟨g, s', r, seen, e1, e2, e3⟩
        cases g with
        | nil =>
          simp only [List.nil_append, List.cons.injEq] at e1
          exfalso
          rw [← e1.1] at e3
          obtain ⟨a1, _, _, a2⟩ := he
          cases e3 with
          | name h => rw [a1] at h; cases h
          | namePanic h => rw [a1] at h; cases h
          | partof _ h1 h2 => rcases a2 with ⟨a2, _⟩ | ⟨q, l, a2, a3, _⟩ <;> rw [a2] at h1 <;> cases h1; rw [a3] at h2; cases h2
          | partofPanic _ h1 h2 => rcases a2 with ⟨a2, _⟩ | ⟨q, l, a2, a3, _⟩ <;> rw [a2] at h1 <;> cases h1; rw [a3] at h2; cases h2
        | cons y g =>
          simp only [List.cons_append, List.cons.injEq] at e1
          cases e2 with
          | cons _ e2 => exact ⟨g, s', r, _, e1.2, e2, e3⟩
      · rintro ⟨g, s', r, seen, e1, e2, e3⟩
        exact ⟨(s, d) :: g, s', r, e :: seen, by rw [e1]; rfl, .cons he e2, e3⟩
    have hhead : (¬ ∃ e, Entry (s, d) e) → (FirstBad ((s, d) :: l) x ↔ Bad (s, d) x) := by
      intro hne
      constructor
      · rintro ⟨g, s', r, seen, e1, e2, e3⟩
        cases g with
        | nil => simp only [List.nil_append, List.cons.injEq] at e1; rw [e1.1]; exact e3
        | cons y g =>
          simp only [List.cons_append, List.cons.injEq] at e1
          cases e2 with
          | @cons _ e _ _ h _ => exact absurd ⟨e, e1.1 ▸ h⟩ hne
      · intro h
        exact ⟨[], _, l, [], rfl, .nil, h⟩
    cases hn : Name.fromStr s with
    | err e =>
      rw [hhead (by rintro ⟨e', h, _⟩; rw [hn] at h; cases h)]
      simp only [mapDe, hn]
      constructor
      · intro h
        cases x <;> cases h
        exact .name hn
      · intro h
        cases h with
        | name h => rw [hn] at h; cases h; rfl
        | namePanic h => rw [hn] at h; cases h
        | partof h => rw [hn] at h; cases h
        | partofPanic h => rw [hn] at h; cases h
    | panic =>
      rw [hhead (by rintro ⟨e', h, _⟩; rw [hn] at h; cases h)]
      simp only [mapDe, hn]
      constructor
      · intro h
        cases x <;> cases h
        exact .namePanic hn
      · intro h
        cases h with
        | name h => rw [hn] at h; cases h
        | namePanic h => exact rfl
        | partof h => rw [hn] at h; cases h
        | partofPanic h => rw [hn] at h; cases h
    | ok n =>
      cases hd : artDocDe d with
      | ok r =>
        rw [hcons (e := (n, r)) ⟨hn, field_iff.1 hd⟩, ← ih (IMap.insert o n r)]
        simp only [mapDe, hn, hd]
        rfl
      | err e =>
        rw [hhead (by rintro ⟨e', h, h'⟩; rw [field_iff.2 h'] at hd; cases hd)]
        have hm : mapDe ((s, d) :: l) o = .err e := by simp only [mapDe, hn, hd]; rfl
        rw [hm]
        constructor
        · intro h
          cases x with
          | none => cases h
          | some e' =>
            have h : Stops (artDocDe d) (some e') := by rw [hd]; exact stops_err h
            obtain ⟨q, h1, h2⟩ := (bad_iff (x := some e')).1 h
            exact .partof hn h1 h2
        · intro h
          cases h with
          | name h => rw [hn] at h; cases h
          | namePanic h => rw [hn] at h; cases h
          | @partof _ q e' _ h1 h2 => exact stops_err (hd ▸ (bad_iff (x := some e')).2 ⟨q, h1, h2⟩ : Stops (.err e : Res LoadErr ArtifactRaw) _)
          | @partofPanic _ q _ h1 h2 => exact stops_err (hd ▸ (bad_iff (x := none)).2 ⟨q, h1, h2⟩ : Stops (.err e : Res LoadErr ArtifactRaw) _)
      | panic =>
        rw [hhead (by rintro ⟨e', h, h'⟩; rw [field_iff.2 h'] at hd; cases hd)]
        have hm : mapDe ((s, d) :: l) o = .panic := by unfold mapDe; rw [hn]; simp only []; rw [hd]; rfl
        rw [hm]
        constructor
        · intro h
          cases x with
          | none =>
            obtain ⟨q, h1, h2⟩ := (bad_iff (x := none)).1 hd
            exact .partofPanic hn h1 h2
          | some e' => cases h
        · intro h
          cases h with
          | name h => rw [hn] at h; cases h
          | namePanic h => rw [hn] at h; cases h
          | @partof _ q e' _ h1 h2 => exact stops_panic (hd ▸ (bad_iff (x := some e')).2 ⟨q, h1, h2⟩ : Stops (.panic : Res LoadErr ArtifactRaw) _)
          | @partofPanic _ q _ h1 h2 => exact rfl

/-- **What is shown of a TOML or JSON file**: in a project that could be read, the artifacts shown for the file are those that are left of its entries; or the thread that read
it ended abnormally, and then nothing of the file is shown. -/
theorem C98_shown (h : ReadsProject L readToml hash ncpu fs base (.ok (c, p))) (hf : f ∈ walkArtifacts fs p.settings) {ty : ArtFileType}
    (ht : ArtFileType.fromPath f = some ty) (hty : ty ≠ .md) (hs : IMap.get? fs f = some (.file (.text s))) :
    ∃ l, docOf L ty s = some l ∧
      ((∃ es out, List.Forall₂ Entry l es ∧ Left es out ∧ (∀ x ∈ out, ∃ a ∈ editable p, Comes f x a) ∧ ∀ a ∈ editable p, a.file = f → ∃ x ∈ out, Comes f x a) ∨
       (FirstBad l none ∧ ∀ a ∈ editable p, a.file ≠ f)) := by
  obtain ⟨r, ha, he, hp⟩ := reads_editable h
  have hmem : ∀ a, a ∈ editable p ↔ ∃ im, (∃ g ∈ walkArtifacts fs p.settings, im ∈ (artSent L p.settings.pre fs g).items) ∧ im.clean = a := by
    intro a
    rw [hp.mem_iff, List.mem_map]
    simp only [ha.arts.mem_iff, List.mem_flatMap]
  have hload : artSent L p.settings.pre fs f = match parseFile L p.settings.pre ty s with
      | .ok m => ⟨m.map (fun x => fromRaw x.1 f x.2), [], false⟩
      | .err e => ⟨[], [Lint.loadError f (L.errMsg e)], false⟩
      | .panic => ⟨[], [], true⟩ := by
    unfold artSent loadFile
    rw [hs, ht]
    simp only []
    cases parseFile L p.settings.pre ty s <;> rfl
  have hof : ∀ a ∈ editable p, a.file = f → ∃ im ∈ (artSent L p.settings.pre fs f).items, im.clean = a := by
    intro a h1 h2
    obtain ⟨im, ⟨g, _, hg2⟩, rfl⟩ := (hmem a).1 h1
    have : g = f := (artSent_file hg2).1.symm.trans h2
    exact ⟨im, this ▸ hg2, rfl⟩
  have hnerr : ∀ er, parseFile L p.settings.pre ty s ≠ .err er := by
    intro er e
    rw [e] at hload
    refine ((noError_parts ha).1 he).1 (Lint.loadError f (L.errMsg er)) ?_ rfl
    exact List.mem_append_right _ (List.mem_flatMap.2 ⟨f, hf, by rw [hload]; exact List.mem_singleton.2 rfl⟩)
  have hparse : parseFile L p.settings.pre ty s = match docOf L ty s with | some l => mapDe l [] | none => .err .doc := by
    cases ty with
    | md => exact absurd rfl hty
    | toml => rfl
    | json => rfl
  cases hd : docOf L ty s with
  | none => rw [hd] at hparse; exact absurd hparse (hnerr _)
  | some l =>
    rw [hd] at hparse
    refine ⟨l, rfl, ?_⟩
    have hparse : parseFile L p.settings.pre ty s = mapDe l [] := hparse
    cases e : mapDe l [] with
    | ok out =>
      rw [hparse, e] at hload
      obtain ⟨es, h1, rfl⟩ := mapDe_iff.1 e
      have hl : Left es (IMap.collect es) := left_collect es
      have hc : ∀ x ∈ IMap.collect es, Comes f x (fromRaw x.1 f x.2).clean := by
        intro x hx
        obtain ⟨a, n', b, e1, _, _⟩ := ((hl.2 x).1 hx).2
        obtain ⟨y, _, _, hy⟩ := forall₂_mem_right h1 (b := (n', x.2)) (by rw [e1]; simp)
        obtain ⟨_, h2, h3⟩ := hy
        refine comes_of (fun q hq => ?_) ?_
        · rcases h3 with ⟨_, h3⟩ | ⟨q', l', _, h4, h5⟩
          · rw [show x.2.partof = none from h3] at hq; cases hq
          · rw [show x.2.partof = some l' from h5] at hq; cases hq; exact namesRawDe_nodup h4
        · rcases h2 with ⟨_, h2⟩ | ⟨t, _, h2⟩
          · rw [show x.2.text = none from h2]; rfl
          · rw [show x.2.text = some (cleanText t) from h2]; exact cleanText_idem _
      refine .inl ⟨es, IMap.collect es, h1, hl, fun x hx => ⟨_, (hmem _).2 ⟨_, ⟨f, hf, ?_⟩, rfl⟩, hc x hx⟩, fun a h1 h2 => ?_⟩
      · rw [hload]; exact List.mem_map.2 ⟨x, hx, rfl⟩
      · obtain ⟨im, h3, rfl⟩ := hof a h1 h2
        rw [hload] at h3
        obtain ⟨x, hx, rfl⟩ := List.mem_map.1 h3
        exact ⟨x, hx, hc x hx⟩
    | err er => exact absurd (hparse.trans e) (hnerr _)
    | panic =>
      rw [hparse, e] at hload
      refine .inr ⟨(C98_fails l none []).1 e, fun a h1 h2 => ?_⟩
      obtain ⟨im, h3, _⟩ := hof a h1 h2
      rw [hload] at h3
      cases h3

/-- **Artifacts are lost without a word**: whenever two entries of a document have the same name, ignoring case, and each entry can be read, the document is read with fewer artifacts
than entries, and what is there for a name is what its last entry says. A markdown file with the same two artifacts is refused (C94). -/
theorem C98_lost {l : List (Str × ArtDoc)} {es : List (Name × ArtifactRaw)} (h : List.Forall₂ Entry l es) (hd : ¬ IMap.Nodup es) :
    ∃ out, mapDe l [] = .ok out ∧ out.length < l.length ∧ ∀ e ∈ es, ∃ x ∈ out, key x.1 = key e.1 ∧ LastSays es e.1 x.2 := by
  have hl := left_collect es
  have hsub : (IMap.collect es).map (fun x => key x.1) ⊆ es.map (fun x => key x.1) := by
    intro k hk
    obtain ⟨x, hx, rfl⟩ := List.mem_map.1 hk
    obtain ⟨⟨a, r, b, e, _⟩, _⟩ := (hl.2 x).1 hx
    exact List.mem_map.2 ⟨(x.1, r), by rw [e]; simp, rfl⟩
  have hsp := List.subperm_of_subset hl.1 hsub
  refine ⟨IMap.collect es, mapDe_iff.2 ⟨es, h, rfl⟩, ?_, fun e he => ?_⟩
  · rw [h.length_eq]
    refine lt_of_not_ge fun hge => hd ?_
    have hperm := hsp.perm_of_length_le (by simpa using hge)
    exact hperm.nodup_iff.1 hl.1
  · obtain ⟨x, hx, hk⟩ := IMap.contains_iff.1 ((IMap.contains_collect es e.1).2 ⟨e, he, rfl⟩)
    obtain ⟨a, n', b, e1, e2, e3⟩ := ((hl.2 x).1 hx).2
    exact ⟨x, hx, hk, a, n', b, e1, e2.trans hk, fun y hy => hk ▸ e3 y hy⟩

end Art.Entries
