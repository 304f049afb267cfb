import Verif.Spec.Config
import Verif.Lemmas.Toml

/-! Helper lemmas for the settings file: the reader against the grammar. -/

namespace Art.Conf
open Art.Spec

/-! ### lines -/

theorem flagVal_iff (s : Str) (b : Bool) (r : Str) : flagVal s = some (b, r) ↔ ∃ t, (t, b) ∈ [(c!"true", true), (c!"false", false)] ∧ s = t ++ r := by
  constructor
  · intro h
    unfold flagVal at h
    split at h
    · cases h; exact ⟨c!"true", by simp, rfl⟩
    · cases h; exact ⟨c!"false", by simp, rfl⟩
    · cases h
  · rintro ⟨t, ht, rfl⟩
    simp only [List.mem_cons, Prod.mk.injEq, List.not_mem_nil, or_false] at ht
    rcases ht with ⟨rfl, rfl⟩ | ⟨rfl, rfl⟩ <;> rfl

theorem flag_noBlank {t : Str} {b : Bool} (h : (t, b) ∈ [(c!"true", true), (c!"false", false)]) (x : Str) : NoBlank (t ++ x) := by
  simp only [List.mem_cons, Prod.mk.injEq, List.not_mem_nil, or_false] at h
  rcases h with ⟨rfl, rfl⟩ | ⟨rfl, rfl⟩ <;> exact noBlank_cons.2 (by decide)

theorem flag_val {t : Str} {b : Bool} (h : (t, b) ∈ [(c!"true", true), (c!"false", false)]) (x : Str) : tomlVal (t ++ x) = none := by
  simp only [List.mem_cons, Prod.mk.injEq, List.not_mem_nil, or_false] at h
  rcases h with ⟨rfl, rfl⟩ | ⟨rfl, rfl⟩ <;> rfl

theorem tomlLine_key {w s k x : Str} (hw : TomlBlank w) (hs : TomlKeyIs s k) (hx : KeyEnds x) : tomlLine (w ++ (s ++ x)) = tomlPair k x := by
  have hk := tomlKey_of hs hx
  unfold tomlLine
  rw [tomlSkip_of hw (key_noBlank hs)]
  obtain ⟨c, r, rfl, hc⟩ := key_head hs
  obtain ⟨n1, n2, n3, n4⟩ := key_first hc
  split
  · rename_i e'
    cases e'
    exact absurd rfl n3
  · have hne : tomlEnd (c :: r ++ x) ≠ true := by
      intro h
      replace h := (tomlEnd_iff _).1 h
      generalize hz : c :: r ++ x = z at h
      cases h with
      | blank hw =>
        have := hw c (by rw [← hz]; simp)
        tauto
      | @comment u d hu _ =>
        cases u with
        | nil => cases hz; exact n4 rfl
        | cons a u =>
          rw [List.cons_append, List.cons_append] at hz
          have ha := (List.cons.inj hz).1
          have := hu a (by simp)
          rw [← ha] at this
          tauto
    rw [if_neg hne, hk]
    rfl

theorem confLine_iff (l : Str) (y : CLine) : confLine l = some y ↔ ConfLineIs l y := by
  constructor
  · intro h
    unfold confLine at h
    split at h
    · rename_i z hz
      cases h
      exact .names (tomlLine_spec hz)
    · obtain ⟨w, hw, hl, -⟩ := tomlSkip_spec l
      obtain ⟨⟨k, r⟩, h1, h⟩ := Option.bind_eq_some_iff.1 h
      obtain ⟨t, ht, e⟩ := tomlKey_spec h1
      obtain ⟨w', hw', he', -⟩ := tomlSkip_spec r
      dsimp only at h
      unfold flagPair at h
      split at h
      · rename_i r' hr'
        obtain ⟨⟨b, x⟩, h2, h⟩ := Option.bind_eq_some_iff.1 h
        obtain ⟨w'', hw'', he'', -⟩ := tomlSkip_spec r'
        obtain ⟨u, hu, e2⟩ := (flagVal_iff _ _ _).1 h2
        dsimp only at h
        split at h
        · rename_i hx
          cases h
          rw [hl, e, he', hr', he'', e2, show w ++ (t ++ (w' ++ '=' :: (w'' ++ (u ++ x)))) = w ++ t ++ w' ++ '=' :: w'' ++ u ++ x by simp]
          exact .flag hw ht hw' hw'' hu ((tomlEnd_iff x).1 hx)
        · cases h
      · cases h
  · intro h
    cases h with
    | names h =>
      unfold confLine
      rw [tomlLine_of h]
    | @flag w s k w' w'' t e b hw hs hw' hw'' ht he =>
      have hx : KeyEnds (w' ++ '=' :: (w'' ++ (t ++ e))) := blank_keyEnds hw' (by rw [← tomlBare_iff]; decide)
      rw [show w ++ s ++ w' ++ '=' :: w'' ++ t ++ e = w ++ (s ++ (w' ++ '=' :: (w'' ++ (t ++ e)))) by simp]
      have h0 : tomlLine (w ++ (s ++ (w' ++ '=' :: (w'' ++ (t ++ e))))) = none := by
        rw [tomlLine_key hw hs hx]
        unfold tomlPair
        rw [tomlSkip_of hw' (by rw [noBlank_cons]; decide)]
        show (tomlVal (tomlSkip (w'' ++ (t ++ e)))).bind _ = _
        rw [tomlSkip_of hw'' (flag_noBlank ht e), flag_val ht]
        rfl
      unfold confLine
      rw [h0]
      show flagLine _ = _
      unfold flagLine
      rw [tomlSkip_of hw (key_noBlank hs), tomlKey_of hs hx]
      show flagPair k (w' ++ '=' :: (w'' ++ (t ++ e))) = _
      unfold flagPair
      rw [tomlSkip_of hw' (by rw [noBlank_cons]; decide)]
      show (flagVal (tomlSkip (w'' ++ (t ++ e)))).bind _ = _
      rw [tomlSkip_of hw'' (flag_noBlank ht e), (flagVal_iff _ b e).2 ⟨t, ht, rfl⟩]
      show (if tomlEnd e then _ else _) = _
      rw [if_pos ((tomlEnd_iff e).2 he)]

/-! ### texts -/

theorem confFold_entries {a : List CLine} {es : Entries} (h : EntriesAre a es) (b : List CLine) : confFold (a ++ b) = (es ++ (confFold b).1, (confFold b).2) := by
  induction h with
  | nil => rfl
  | skip _ ih => exact ih
  | @pair k v ls es _ ih =>
    show ((k, v) :: (confFold (ls ++ b)).1, (confFold (ls ++ b)).2) = _
    rw [ih]
    rfl

theorem confFold_tables {b : List CLine} {ts : Doc} (h : TablesAre b ts) : confFold b = ([], ts) := by
  induction h with
  | nil => rfl
  | @table h ls es ls' ts he _ ih =>
    show ([], (h, (confFold (ls ++ ls')).1) :: (confFold (ls ++ ls')).2) = _
    rw [confFold_entries he, ih]
    simp

theorem confFold_spec (ys : List CLine) : ∃ a b, ys = a ++ b ∧ EntriesAre a (confFold ys).1 ∧ TablesAre b (confFold ys).2 := by
  induction ys with
  | nil => exact ⟨[], [], rfl, .nil, .nil⟩
  | cons y ys ih =>
    obtain ⟨a, b, e, ha, hb⟩ := ih
    cases y with
    | skip => exact ⟨.skip :: a, b, by rw [e]; rfl, .skip ha, hb⟩
    | pair k v => exact ⟨.pair k v :: a, b, by rw [e]; rfl, .pair ha, hb⟩
    | header h =>
      refine ⟨[], .header h :: ys, rfl, .nil, ?_⟩
      show TablesAre _ ((h, (confFold ys).1) :: (confFold ys).2)
      rw [show CLine.header h :: ys = CLine.header h :: a ++ b by rw [e]; rfl]
      exact .table ha hb

theorem confText_iff (s : Str) (d : Doc) : confText s = some d ↔ DocIs s d := by
  unfold confText
  constructor
  · intro h
    obtain ⟨ys, h1, h2⟩ := Option.map_eq_some_iff.1 h
    obtain ⟨a, b, e, ha, hb⟩ := confFold_spec ys
    obtain ⟨ls, h0, hn, rfl⟩ := exists_lines s
    rw [splitLf_join h0 hn] at h1
    exact ⟨ls, ys, a, b, _, _, h0, hn, rfl, (mapM_forall₂.1 h1).imp fun l y h => (confLine_iff l y).1 h, e, ha, hb, h2.symm⟩
  · rintro ⟨ls, ys, a, b, root, ts, h0, h1, rfl, h2, rfl, ha, hb, rfl⟩
    rw [splitLf_join h0 h1, mapM_forall₂.2 (h2.imp fun l y h => (confLine_iff l y).2 h)]
    show some (([], (confFold (a ++ b)).1) :: (confFold (a ++ b)).2) = _
    rw [confFold_entries ha, confFold_tables hb]
    simp

/-! ### the rules -/

theorem legalDoc_iff (d : Doc) : legalDoc d = true ↔ Legal d := by
  unfold legalDoc
  simp only [Bool.and_eq_true, decide_eq_true_eq, List.all_eq_true, Bool.not_eq_true', ← Bool.not_eq_true, List.isPrefixOf_iff_prefix]
  constructor
  · rintro ⟨⟨h1, h2⟩, h3⟩
    refine ⟨h1, h2, ?_⟩
    rintro h k v ⟨es, he, hv⟩ ⟨t, ht, hp⟩
    exact h3 t ht _ he _ hv hp
  · rintro ⟨h1, h2, h3⟩
    exact ⟨⟨h1, h2⟩, fun t ht u hu e he hp => h3 u.1 e.1 e.2 ⟨u.2, hu, he⟩ ⟨t, ht, hp⟩⟩

theorem value_mem (f : List Str) : f ∈ valueFields ↔ IsValue f := by
  simp only [valueFields, IsValue, List.mem_cons, List.not_mem_nil, or_false]

theorem how_mem (f : List Str) : f ∈ howFields ↔ IsHow f := by
  simp only [howFields, IsHow, List.mem_cons, List.not_mem_nil, or_false]

theorem table_mem (f : List Str) : f ∈ tableFields ↔ f = [c!"parse"] ∨ f = [c!"format"] ∨ f = [c!"export"] ∨ IsHow f := by
  rw [tableFields, List.mem_append, how_mem]
  simp only [List.mem_cons, List.not_mem_nil, or_false]
  tauto

theorem longer {f t : List Str} (h : f <+: t) (hn : f ≠ t) : ∃ k, f ++ [k] <+: t := by
  obtain ⟨r, rfl⟩ := h
  cases r with
  | nil => exact absurd (by simp) hn
  | cons k r => exact ⟨k, r, by simp⟩

theorem typedDoc_iff (d : Doc) : typedDoc d = true ↔ Typed d := by
  unfold typedDoc
  simp only [Bool.and_eq_true, List.all_eq_true, Bool.not_eq_true', ← Bool.not_eq_true, List.isPrefixOf_iff_prefix, List.contains_iff_mem, Bool.or_eq_true, beq_iff_eq, value_mem, how_mem, table_mem]
  constructor
  · rintro ⟨⟨h1, h2⟩, h3⟩
    refine ⟨?_, ?_, ?_⟩
    · rintro h k v ⟨es, he, hv⟩
      have := h1 _ he _ hv
      tauto
    · rintro f hf ⟨t, ht, hp⟩
      exact h2 t ht f hf hp
    · rintro f hf k ⟨t, ht, hp⟩
      rcases h3 t ht f hf with h | h
      · exact h ((List.prefix_append f [k]).trans hp)
      · rw [← h] at hp
        have := hp.length_le
        simp at this
  · rintro ⟨h1, h2, h3⟩
    refine ⟨⟨?_, fun t ht f hf hp => h2 f hf ⟨t, ht, hp⟩⟩, ?_⟩
    · intro t ht e he
      have := h1 t.1 e.1 e.2 ⟨t.2, ht, he⟩
      tauto
    · intro t ht f hf
      by_cases hp : f <+: t.1
      · by_cases hn : f = t.1
        · exact .inr hn
        · obtain ⟨k, hk⟩ := longer hp hn
          exact absurd ⟨t, ht, hk⟩ (h3 f hf k)
      · exact .inl hp

/-! ### fields -/

section
variable {d : Doc} (L : Legal d)
include L

theorem says_table {h : List Str} {es : Entries} (he : (h, es) ∈ d) (k : Str) (v : Val) : Says d h k v ↔ es.lookup k = some v := by
  rw [lookup_iff (L.keys _ he)]
  constructor
  · rintro ⟨es', h1, h2⟩
    have a := (lookup_iff L.tables).2 h1
    rw [(lookup_iff L.tables).2 he] at a
    cases a
    exact h2
  · intro h2
    exact ⟨es, he, h2⟩

theorem valueOf_iff (h : List Str) (k : Str) (v : Val) : valueOf d h k = some v ↔ Says d h k v := by
  unfold valueOf
  rw [Option.bind_eq_some_iff]
  constructor
  · rintro ⟨es, h1, h2⟩
    exact (says_table L ((lookup_iff L.tables).1 h1) k v).2 h2
  · rintro ⟨es, h1, h2⟩
    exact ⟨es, (lookup_iff L.tables).2 h1, (lookup_iff (L.keys _ h1)).2 h2⟩

theorem valueOf_none (h : List Str) (k : Str) : valueOf d h k = none ↔ ∀ v, ¬ Says d h k v := by
  rw [Option.eq_none_iff_forall_not_mem]
  exact forall_congr' fun v => not_congr (valueOf_iff L h k v)

theorem lookup_how (T : Typed d) {h : List Str} (hh : IsHow h) :
    (d.lookup h = none ∧ ¬ There d h ∧ ∀ k v, ¬ Says d h k v) ∨ ∃ es, d.lookup h = some es ∧ There d h ∧ (∀ k v, Says d h k v ↔ es.lookup k = some v) := by
  cases e : d.lookup h with
  | some es =>
    have := (lookup_iff L.tables).1 e
    exact .inr ⟨es, rfl, ⟨_, this, List.prefix_refl _⟩, says_table L this⟩
  | none =>
    have := (lookup_none_iff L.tables).1 e
    refine .inl ⟨rfl, ?_, ?_⟩
    · rintro ⟨t, ht, hp⟩
      by_cases hn : h = t.1
      · subst hn
        exact this _ ht
      · obtain ⟨k, hk⟩ := longer hp hn
        exact T.flat h hh k ⟨t, ht, hk⟩
    · rintro k v ⟨es, h1, -⟩
      exact this es h1

theorem listField_iff (h : List Str) (k : Str) (l : List Str) : listField (valueOf d h k) = some l ↔ Says d h k (.list l) := by
  rw [← valueOf_iff L]
  cases valueOf d h k with
  | none => simp [listField]
  | some v => cases v <;> simp [listField]

theorem textField_iff (h : List Str) (k : Str) (o : Option Str) : textField (valueOf d h k) = some o ↔ TextIs d h k o := by
  unfold TextIs
  simp only [← valueOf_none L, ← valueOf_iff L]
  cases valueOf d h k with
  | none => simp [textField, eq_comm (b := o)]
  | some v => cases v <;> simp [textField, eq_comm (b := o)]

theorem tocField_iff (h : List Str) (k : Str) (b : Bool) : tocField (valueOf d h k) = some b ↔ Says d h k (.flag b) ∨ ((∀ v, ¬ Says d h k v) ∧ b = true) := by
  simp only [← valueOf_none L, ← valueOf_iff L]
  cases valueOf d h k with
  | none => simp [tocField, eq_comm (b := b)]
  | some v => cases v <;> simp [tocField]

theorem nameField_iff (T : Typed d) {h : List Str} (hh : IsHow h) (m : MdName) : nameField (d.lookup h) = some m ↔ NameIs d h m := by
  unfold NameIs
  rcases lookup_how L T hh with ⟨e, h1, h2⟩ | ⟨es, e, h1, h2⟩
  · simp [e, h1, h2, nameField, eq_comm (b := m)]
  · simp only [e, h1, h2, nameField, not_true_eq_false, false_and, false_or]
    split
    · rename_i t ht
      simp only [ht, Option.some.injEq, Val.text.injEq]
      split_ifs with h3 h4
      · subst h3
        simp [eq_comm (b := m)]
      · subst h4
        split
        · rename_i v hv
          simp [hv, eq_comm (b := m)]
        · rename_i hv
          have hv := fun v => eq_false (hv v)
          simp [hv]
      · simp [h3, h4]
    · rename_i hx
      have hx := fun v => eq_false (hx v)
      simp [hx]

theorem attrsField_iff (T : Typed d) (m : MdAttrs) : attrsField (d.lookup [c!"format", c!"md_attrs"]) = some m ↔ AttrsAre d m := by
  unfold AttrsAre TextIs
  rcases lookup_how L T (show IsHow [c!"format", c!"md_attrs"] from .inr (.inl rfl)) with ⟨e, h1, h2⟩ | ⟨es, e, h1, h2⟩
  · simp [e, h1, h2, attrsField, eq_comm (b := m)]
  · simp only [e, h1, h2, attrsField, not_true_eq_false, false_and, false_or]
    split
    · rename_i t ht
      simp only [ht, Option.some.injEq, Val.text.injEq]
      split_ifs with h3 h4
      · subst h3
        simp [eq_comm (b := m)]
      · subst h4
        cases hv : es.lookup c!"prefix" with
        | none => simp [textField, eq_comm (b := m)]
        | some v => cases v <;> simp [textField, eq_comm (b := m)]
      · simp [h3, h4]
    · rename_i hx
      have hx := fun v => eq_false (hx v)
      simp [hx]

theorem familyField_iff (T : Typed d) (m : MdFamily) : familyField (d.lookup [c!"export", c!"md_family"]) = some m ↔ FamilyIs d m := by
  unfold FamilyIs
  rcases lookup_how L T (show IsHow [c!"export", c!"md_family"] from .inr (.inr (.inl rfl))) with ⟨e, h1, h2⟩ | ⟨es, e, h1, h2⟩
  · simp [e, h1, h2, familyField, eq_comm (b := m)]
  · simp only [e, h1, h2, familyField, not_true_eq_false, false_and, false_or]
    split
    · rename_i t ht
      simp only [ht, Option.some.injEq, Val.text.injEq]
      split_ifs with h3 h4
      · subst h3
        simp [eq_comm (b := m)]
      · subst h4
        simp [eq_comm (b := m)]
      · simp [h3, h4]
    · rename_i hx
      have hx := fun v => eq_false (hx v)
      simp [hx]

theorem dotField_iff (T : Typed d) (m : MdDot) : dotField (d.lookup [c!"export", c!"md_dot"]) = some m ↔ DotIs d m := by
  unfold DotIs
  rcases lookup_how L T (show IsHow [c!"export", c!"md_dot"] from .inr (.inr (.inr (.inl rfl)))) with ⟨e, h1, h2⟩ | ⟨es, e, h1, h2⟩
  · simp [e, h1, h2, dotField, eq_comm (b := m)]
  · simp only [e, h1, h2, dotField, not_true_eq_false, false_and, false_or]
    split
    · rename_i t ht
      simp only [ht, Option.some.injEq, Val.text.injEq]
      split_ifs with h3 h4 h5
      · subst h3
        simp [eq_comm (b := m)]
      · subst h4
        simp [eq_comm (b := m)]
      · subst h5
        split
        · rename_i a b ha hb
          simp [ha, hb, eq_comm (b := m)]
        · rename_i hn
          simp only [reduceCtorEq, false_iff]
          rintro (⟨h, -⟩ | ⟨h, -⟩ | ⟨a, b, -, ha, hb, -⟩)
          · exact absurd h (by decide)
          · exact absurd h (by decide)
          · exact hn a b ha hb
      · simp [h3, h4, h5]
    · rename_i hx
      have hx := fun v => eq_false (hx v)
      simp [hx]

theorem rawOf_iff (T : Typed d) (raw : SettingsRaw) : rawOf d = some raw ↔ Says d [] c!"artifact_paths" (.list raw.artifactPaths) ∧ Says d [] c!"exclude_artifact_paths" (.list raw.excludeArtifactPaths) ∧
    Says d [] c!"code_paths" (.list raw.codePaths) ∧ Says d [] c!"exclude_code_paths" (.list raw.excludeCodePaths) ∧ TextIs d [] c!"code_url" raw.codeUrl ∧
    NameIs d [c!"parse", c!"md_name"] raw.mdName ∧ AttrsAre d raw.mdAttrs := by
  simp only [← listField_iff L, ← textField_iff L, ← nameField_iff L T (show IsHow [c!"parse", c!"md_name"] from .inl rfl), ← attrsField_iff L T]
  unfold rawOf
  simp only [Option.bind_eq_bind, Option.bind_eq_some_iff, Option.pure_def, Option.some.injEq]
  constructor
  · rintro ⟨a, ha, b, hb, c, hc, e, he, f, hf, g, hg, i, hi, rfl⟩
    exact ⟨ha, hb, hc, he, hf, hg, hi⟩
  · rintro ⟨ha, hb, hc, he, hf, hg, hi⟩
    exact ⟨_, ha, _, hb, _, hc, _, he, _, hf, _, hg, _, hi, rfl⟩

theorem there_any : d.any (fun t => [c!"export"].isPrefixOf t.1) = true ↔ There d [c!"export"] := by
  simp only [List.any_eq_true, List.isPrefixOf_iff_prefix, There]

omit L in
theorem there_short {h h' : List Str} (hp : h <+: h') (ht : There d h') : There d h := by
  obtain ⟨t, h1, h2⟩ := ht
  exact ⟨t, h1, hp.trans h2⟩

omit L in
theorem says_there {h : List Str} {k : Str} {v : Val} (hs : Says d h k v) : There d h := by
  obtain ⟨es, h1, -⟩ := hs
  exact ⟨_, h1, List.prefix_refl _⟩

theorem exportOf_iff (T : Typed d) (ex : WireExport) : exportOf d = some ex ↔ TextIs d [c!"export"] c!"md_header" ex.header ∧
    (Says d [c!"export"] c!"md_toc" (.flag ex.toc) ∨ ((∀ v, ¬ Says d [c!"export"] c!"md_toc" v) ∧ (ex.toc = true ↔ There d [c!"export"]))) ∧ FamilyIs d ex.family ∧
    DotIs d ex.dot ∧ NameIs d [c!"export", c!"md_name"] ex.name := by
  unfold exportOf
  by_cases ht : There d [c!"export"]
  · rw [if_pos ((there_any L).2 ht)]
    simp only [ht, iff_true]
    simp only [← tocField_iff L, ← textField_iff L, ← familyField_iff L T, ← dotField_iff L T, ← nameField_iff L T (show IsHow [c!"export", c!"md_name"] from .inr (.inr (.inr (.inr rfl))))]
    unfold exportThere
    simp only [Option.bind_eq_bind, Option.bind_eq_some_iff, Option.pure_def, Option.some.injEq]
    constructor
    · rintro ⟨a, ha, b, hb, c, hc, e, he, f, hf, rfl⟩
      exact ⟨ha, hb, hc, he, hf⟩
    · rintro ⟨ha, hb, hc, he, hf⟩
      exact ⟨_, ha, _, hb, _, hc, _, he, _, hf, rfl⟩
  · have h1 : ∀ k v, ¬ Says d [c!"export"] k v := fun k v h => ht (says_there h)
    have h2 : ∀ x, ¬ There d [c!"export", x] := fun x h => ht (there_short ⟨[x], rfl⟩ h)
    have h3 : ∀ x k v, ¬ Says d [c!"export", x] k v := fun x k v h => h2 x (says_there h)
    rw [if_neg (fun h => ht ((there_any L).1 h))]
    unfold TextIs FamilyIs DotIs NameIs
    simp only [h1, h2, h3, ht, false_and, exists_false, false_or, not_false_eq_true, implies_true, true_and, or_false, and_false, iff_false, Bool.not_eq_true, Option.some.injEq]
    constructor
    · rintro rfl
      exact ⟨rfl, rfl, rfl, rfl, rfl⟩
    · obtain ⟨a, b, c, e, f⟩ := ex
      rintro ⟨rfl, rfl, rfl, rfl, rfl⟩
      rfl

end

theorem confSettings_iff (s : Str) (raw : SettingsRaw) (ex : WireExport) : confSettings s = some (raw, ex) ↔ ConfIs s raw ex := by
  unfold confSettings ConfIs
  simp only [Option.bind_eq_bind, Option.bind_eq_some_iff, confText_iff]
  refine exists_congr fun d => and_congr_right fun _ => ?_
  by_cases h : (legalDoc d && typedDoc d) = true
  · rw [if_pos h]
    rw [Bool.and_eq_true, legalDoc_iff, typedDoc_iff] at h
    simp only [Option.bind_eq_some_iff, Option.pure_def, Option.some.injEq, Prod.mk.injEq]
    constructor
    · rintro ⟨raw', h1, ex', h2, rfl, rfl⟩
      obtain ⟨a, b, c, e, f, g, i⟩ := (rawOf_iff h.1 h.2 _).1 h1
      obtain ⟨a', b', c', e', f'⟩ := (exportOf_iff h.1 h.2 _).1 h2
      exact ⟨h.1, h.2, a, b, c, e, f, g, i, a', b', c', e', f'⟩
    · rintro ⟨-, -, a, b, c, e, f, g, i, a', b', c', e', f'⟩
      exact ⟨raw, (rawOf_iff h.1 h.2 _).2 ⟨a, b, c, e, f, g, i⟩, ex, (exportOf_iff h.1 h.2 _).2 ⟨a', b', c', e', f'⟩, rfl, rfl⟩
  · rw [if_neg h]
    rw [Bool.and_eq_true, legalDoc_iff, typedDoc_iff] at h
    simp only [reduceCtorEq, false_iff]
    tauto

end Art.Conf
