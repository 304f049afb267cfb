import Verif.Lemmas.Toml
import Verif.Props.Yaml
import Verif.Props.Init
import Verif.Props.FmtTwice

/-!
# Property C68: artifact files and settings are TOML

The grammar is in Verif/Spec/Toml.lean. For a library that reads texts of this grammar as they say and writes artifacts as toml does, the condition of C46 on the TOML library
becomes a condition on characters, and the condition of C56 on the settings of a new project goes away.
-/

namespace Art
open Spec

/-- C68: the reader accepts exactly the texts of the grammar, with exactly the artifacts that they give. -/
theorem C68_reads (s : Str) (docs : List (Str × ArtDoc)) : tomlArts s = some docs ↔ TomlArtsText s docs := tomlArts_iff s docs

/-- C68: the same for the settings. -/
theorem C68_settings (s : Str) (raw : SettingsRaw) : tomlSettings s = some raw ↔ TomlSettingsText s raw := tomlSettings_iff s raw

/-- C68: the grammar is not ambiguous. -/
theorem C68_unambiguous {s : Str} {v w : List (Str × ArtDoc)} (h : TomlArtsText s v) (h' : TomlArtsText s w) : v = w := by
  rw [← tomlArts_iff] at h h'
  rw [h] at h'
  exact Option.some.inj h'

/-- C68: the same for the settings. -/
theorem C68_settings_unambiguous {s : Str} {v w : SettingsRaw} (h : TomlSettingsText s v) (h' : TomlSettingsText s w) : v = w := by
  rw [← tomlSettings_iff] at h h'
  rw [h] at h'
  exact Option.some.inj h'

/-- C68: what is written for a text is that text in TOML exactly when it has neither U+001F nor U+007F; otherwise it is no TOML at all. -/
theorem C68_string (s : Str) : (TomlStringIs (tomlQuoted s) s ↔ TomlKept s) ∧ (¬ TomlKept s → ∀ v, ¬ TomlStringIs (tomlQuoted s) v) := by
  have h : ¬ TomlKept s → ∀ v, ¬ TomlStringIs (tomlQuoted s) v := by
    intro hk v hv
    apply hk
    intro c hc
    by_contra hn
    have hn : c.toNat = 0x1f ∨ c.toNat = 0x7f := by tauto
    exact not_visible hn (.inr (string_visible hv c (quoted_raw hc hn)))
  exact ⟨⟨fun hv => by by_contra hk; exact h hk s hv, tomlQuoted_text⟩, h⟩

/-! ## what is written -/

theorem joinLines_ends (a : List Str) {b : List Str} (h : b ≠ []) : joinLines (a ++ b) = a.flatMap (· ++ ['\n']) ++ joinLines b := by
  induction a with
  | nil => rfl
  | cons l a ih =>
    rw [List.cons_append, joinLines_cons _ (by simp [h]), ih]
    simp

theorem joinLines_ended (a : List Str) : joinLines (a ++ [[]]) = a.flatMap (· ++ ['\n']) := by
  rw [joinLines_ends a (by simp)]
  simp [joinLines]

/-- The lines of the text. -/
theorem tomlDocs_lines {l : List (Str × ArtDoc)} (h : l ≠ []) : tomlDocs l = joinLines (l.flatMap fun x => tomlTable x ++ [[]]) := by
  unfold tomlDocs
  induction l with
  | nil => exact absurd rfl h
  | cons x l ih =>
    by_cases hl : l = []
    · subst hl
      rw [List.flatMap_singleton, joinLines_ended]
      simp
    · obtain ⟨y, l', rfl⟩ := List.exists_cons_of_ne_nil hl
      rw [List.flatMap_cons, joinLines_ends _ (by simp), ← ih (by simp), List.flatMap_append]
      simp [List.intercalate]

theorem tomlKeyText_key {k : Str} (h0 : k ≠ []) (h : TomlKept k) : TomlKeyIs (tomlKeyText k) k := by
  unfold tomlKeyText
  split
  · rename_i hb
    exact .bare h0 fun c hc => (tomlBare_iff c).1 (List.all_eq_true.1 hb c hc)
  · exact .quoted (tomlQuoted_text h)

theorem noBlanks : TomlBlank [] := by intro c h; cases h

theorem oneBlank : TomlBlank [' '] := by intro c h; exact .inl (List.mem_singleton.1 h)

/-- A list of texts. -/
theorem tomlItems_text {l : List Str} (h : ∀ s ∈ l, TomlKept s) : TomlItemsAre (List.intercalate c!", " (l.map tomlQuoted) ++ [']']) l := by
  have key : ∀ {l : List Str} (w : Str), TomlBlank w → (∀ s ∈ l, TomlKept s) → l ≠ [] → TomlItemsAre (w ++ (List.intercalate c!", " (l.map tomlQuoted) ++ [']'])) l := by
    intro l
    induction l with
    | nil => intro w _ _ h; exact absurd rfl h
    | cons s l ih =>
      intro w hw h _
      by_cases hl : l = []
      · subst hl
        have := TomlItemsAre.last hw (tomlQuoted_text (h s (by simp))) noBlanks
        simpa [List.intercalate, List.intersperse] using this
      · have := TomlItemsAre.cons hw (tomlQuoted_text (h s (by simp))) noBlanks (ih [' '] oneBlank (fun x hx => h x (by simp [hx])) hl)
        obtain ⟨y, l', rfl⟩ := List.exists_cons_of_ne_nil hl
        simpa [List.intercalate, List.intersperse] using this
  by_cases hl : l = []
  · subst hl
    exact TomlItemsAre.nil noBlanks
  · exact key [] noBlanks h hl

/-- All texts of a value are kept. -/
def ValueKept : NamesDoc → Prop
  | .str s => TomlKept s
  | .seq l => ∀ s ∈ l, TomlKept s

theorem tomlValue_text {v : NamesDoc} (h : ValueKept v) : TomlValueIs (tomlValue v) v := by
  cases v with
  | str s => exact .str (tomlQuoted_text h)
  | seq l => exact .seq (tomlItems_text h)

theorem fields_iff (x : Str × ArtDoc) : DocKept x ↔ TomlKept x.1 ∧ ∀ e ∈ tomlFields x.2, ValueKept e.2 := by
  obtain ⟨k, done, partof, text⟩ := x
  unfold DocKept tomlFields
  refine and_congr Iff.rfl ?_
  constructor
  · rintro ⟨h1, h2, h3⟩ e he
    simp only [List.mem_append, Option.mem_toList, Option.map_eq_some_iff] at he
    rcases he with (⟨s, hs, rfl⟩ | ⟨s, hs, rfl⟩) | ⟨s, hs, rfl⟩
    · exact h1 s hs
    · have := h3 s hs
      cases s <;> exact this
    · exact h2 s hs
  · intro h
    simp only [List.mem_append, Option.mem_toList, Option.map_eq_some_iff] at h
    refine ⟨fun s hs => h _ (.inl (.inl ⟨s, hs, rfl⟩)), fun s hs => h _ (.inr ⟨s, hs, rfl⟩), fun p hp => ?_⟩
    have := h _ (.inl (.inr ⟨p, hp, rfl⟩))
    cases p <;> exact this

theorem fields_keys (d : ArtDoc) : ∀ e ∈ tomlFields d, TomlKeyIs e.1 e.1 := by
  intro e he
  unfold tomlFields at he
  simp only [List.mem_append, Option.mem_toList, Option.map_eq_some_iff] at he
  have key : ∀ k : Str, k ≠ [] → k.all tomlBare = true → TomlKeyIs k k := fun k h0 h => .bare h0 fun c hc => (tomlBare_iff c).1 (List.all_eq_true.1 h c hc)
  rcases he with (⟨s, hs, rfl⟩ | ⟨s, hs, rfl⟩) | ⟨s, hs, rfl⟩
  · exact key c!"done" (by decide) (by decide)
  · exact key c!"partof" (by decide) (by decide)
  · exact key c!"text" (by decide) (by decide)

theorem fields_art (d : ArtDoc) : TomlArtIs (tomlFields d) d := by
  refine (tomlArt_iff _ _).1 ?_
  obtain ⟨done, partof, text⟩ := d
  cases done <;> cases partof <;> cases text <;> rfl

/-- The lines of a table. -/
theorem table_lines {x : Str × ArtDoc} (h0 : x.1 ≠ []) (h : DocKept x) :
    List.Forall₂ TomlLineIs (tomlTable x ++ [[]]) (TLine.header [x.1] :: (tomlFields x.2).map (fun e => TLine.pair e.1 e.2) ++ [.skip]) := by
  rw [fields_iff] at h
  have hp := fields_keys x.2
  refine List.rel_append (R := TomlLineIs) (.cons ?_ ?_) (.cons (.skip (.blank noBlanks)) .nil)
  · have := TomlLineIs.header noBlanks (TomlPathIs.last noBlanks (tomlKeyText_key h0 h.1) noBlanks) (.blank noBlanks)
    simpa using this
  · have key : ∀ es : TEntries, (∀ e ∈ es, TomlKeyIs e.1 e.1 ∧ ValueKept e.2) →
        List.Forall₂ TomlLineIs (es.map fun e => e.1 ++ c!" = " ++ tomlValue e.2) (es.map fun e => .pair e.1 e.2) := by
      intro es
      induction es with
      | nil => intro _; exact .nil
      | cons e es ih =>
        intro h
        refine .cons ?_ (ih fun e he => h e (by simp [he]))
        have := TomlLineIs.pair noBlanks (h e (by simp)).1 oneBlank oneBlank (tomlValue_text (h e (by simp)).2) (.blank noBlanks)
        simpa using this
    exact key _ fun e he => ⟨hp e he, h.2 e he⟩

/-- C68: what is written for artifacts says in TOML that they are these artifacts, if no key occurs twice or is empty and no text has U+001F or U+007F. -/
theorem C68_written {docs : List (Str × ArtDoc)} (hn : (docs.map (·.1)).Nodup) (h : ∀ x ∈ docs, x.1 ≠ [] ∧ DocKept x) : TomlArtsText (tomlDocs docs) docs := by
  refine ⟨docs.map fun x => ([x.1], tomlFields x.2), ?_, hn, ?_⟩
  · by_cases hd : docs = []
    · subst hd
      exact ⟨[[]], [.skip], [.skip], [], by simp, by simp, rfl, .cons (.skip (.blank noBlanks)) .nil, rfl, .skip .nil, .nil⟩
    have hf : ∀ {docs : List (Str × ArtDoc)}, (∀ x ∈ docs, x.1 ≠ [] ∧ DocKept x) → List.Forall₂ TomlLineIs (docs.flatMap fun x => tomlTable x ++ [[]])
        (docs.flatMap fun x => TLine.header [x.1] :: (tomlFields x.2).map (fun e => TLine.pair e.1 e.2) ++ [.skip]) := by
      intro docs
      induction docs with
      | nil => intro _; exact .nil
      | cons x docs ih =>
        intro h
        rw [List.flatMap_cons, List.flatMap_cons]
        exact List.rel_append (R := TomlLineIs) (table_lines (h x (by simp)).1 (h x (by simp)).2) (ih fun y hy => h y (by simp [hy]))
    refine ⟨_, _, [], _, ?_, ?_, tomlDocs_lines hd, hf h, rfl, .nil, ?_⟩
    · obtain ⟨y, l', rfl⟩ := List.exists_cons_of_ne_nil hd
      simp
    · intro l hl hm
      obtain ⟨y, -, hy⟩ := forall₂_mem_left (hf h) hl
      exact absurd (line_visible hy _ hm) (by decide)
    · clear hn h hf hd
      induction docs with
      | nil => exact .nil
      | cons x docs ih =>
        have he : ∀ es : TEntries, TomlEntriesAre (es.map (fun e => TLine.pair e.1 e.2) ++ [.skip]) es := by
          intro es
          induction es with
          | nil => exact .skip .nil
          | cons e es ih => exact .pair ih
        exact .table (he _) ih
  · clear hn h
    induction docs with
    | nil => exact .nil
    | cons x docs ih => exact .cons ⟨rfl, fields_art _⟩ ih

/-- C68: otherwise what is written is not TOML at all: the whole file cannot be read, whatever else is in it. -/
theorem C68_unreadable {docs : List (Str × ArtDoc)} {x : Str × ArtDoc} (hx : x ∈ docs) (h : ¬ DocKept x) (v : List (Str × ArtDoc)) : ¬ TomlArtsText (tomlDocs docs) v := by
  rintro ⟨ts, ht, -⟩
  have hraw : ∃ c ∈ (tomlTable x).flatMap (· ++ ['\n']), c.toNat = 0x1f ∨ c.toNat = 0x7f := by
    have quoted : ∀ {s : Str}, ¬ TomlKept s → ∃ c ∈ tomlQuoted s, c.toNat = 0x1f ∨ c.toNat = 0x7f := by
      intro s hs
      unfold TomlKept at hs
      push Not at hs
      obtain ⟨c, hc, hn⟩ := hs
      have hn : c.toNat = 0x1f ∨ c.toNat = 0x7f := by
        by_cases e : c.toNat = 0x1f
        · exact .inl e
        · exact .inr (hn e)
      exact ⟨c, quoted_raw hc hn, hn⟩
    rw [fields_iff] at h
    by_cases hk : TomlKept x.1
    · have h : ¬ ∀ e ∈ tomlFields x.2, ValueKept e.2 := fun h' => h ⟨hk, h'⟩
      push Not at h
      obtain ⟨e, he, hv⟩ := h
      have : ∃ c ∈ tomlValue e.2, c.toNat = 0x1f ∨ c.toNat = 0x7f := by
        cases e2 : e.2 with
        | str s => rw [e2] at hv; exact quoted hv
        | seq l =>
          rw [e2] at hv
          have hv : ¬ ∀ s ∈ l, TomlKept s := hv
          push Not at hv
          obtain ⟨s, hs, hv⟩ := hv
          obtain ⟨c, hc, hn⟩ := quoted hv
          refine ⟨c, ?_, hn⟩
          have hin : ∀ {l : List Str}, s ∈ l → c ∈ List.intercalate c!", " (l.map tomlQuoted) := by
            intro l
            induction l with
            | nil => intro h; cases h
            | cons a l ih =>
              intro h
              cases l with
              | nil =>
                rw [List.mem_singleton.1 h] at hc
                simpa [List.intercalate, List.intersperse] using hc
              | cons b l =>
                have e : List.intercalate c!", " ((a :: b :: l).map tomlQuoted) = tomlQuoted a ++ c!", " ++ List.intercalate c!", " ((b :: l).map tomlQuoted) := by
                  simp [List.intercalate]
                rw [e]
                rcases List.mem_cons.1 h with rfl | h
                · exact List.mem_append_left _ (List.mem_append_left _ hc)
                · exact List.mem_append_right _ (ih h)
          exact List.mem_cons_of_mem _ (List.mem_append_left _ (hin hs))
      obtain ⟨c, hc, hn⟩ := this
      refine ⟨c, ?_, hn⟩
      refine List.mem_flatMap.2 ⟨_, List.mem_cons_of_mem _ (List.mem_map.2 ⟨e, he, rfl⟩), ?_⟩
      exact List.mem_append_left _ (List.mem_append_right _ hc)
    · obtain ⟨c, hc, hn⟩ := quoted hk
      refine ⟨c, ?_, hn⟩
      have hb : ¬ x.1.all tomlBare = true := by
        intro hb
        apply hk
        intro d hd
        have := bare_visible ((tomlBare_iff d).1 (List.all_eq_true.1 hb d hd))
        constructor <;> intro e
        · exact not_visible (.inl e) (.inr this)
        · exact not_visible (.inr e) (.inr this)
      refine List.mem_flatMap.2 ⟨_, List.mem_cons_self .., ?_⟩
      unfold tomlKeyText
      rw [if_neg hb]
      exact List.mem_append_left _ (List.mem_cons_of_mem _ (List.mem_append_left _ hc))
  obtain ⟨c, hc, hn⟩ := hraw
  refine not_visible hn (text_visible ht c ?_)
  rw [tomlDocs_lines (List.ne_nil_of_mem hx)]
  obtain ⟨a, b, rfl⟩ := List.append_of_mem hx
  rw [List.flatMap_append, List.flatMap_cons, joinLines_ends _ (by simp)]
  refine List.mem_append_right _ ?_
  rw [List.append_assoc, joinLines_ends _ (by simp)]
  exact List.mem_append_left _ hc

/-! ## whole projects -/

theorem name_tomlKept (n : Name) : TomlKept n.raw := by
  intro c hc
  rcases name_chars n.lang c hc with h | rfl
  · have h := (nameCharI_toNat c).1 h
    omega
  · decide

theorem docOf_kept {a : ArtifactIm} (ht : TomlKept a.text) (hd : ∀ d, a.done = some d → TomlKept d) : (docOf a).1 ≠ [] ∧ DocKept (docOf a) := by
  refine ⟨?_, name_tomlKept _, hd, ?_, ?_⟩
  · intro e
    have e : a.name.raw = [] := e
    have := name_has_dash a.name.lang
    rw [e] at this
    cases this
  · intro s hs
    have hs : (if a.text = [] then none else some a.text) = some s := hs
    split at hs
    · cases hs
    · cases hs; exact ht
  · intro p hp
    have hp : (if a.partof = [] then none else some (partofDoc a.partof)) = some p := hp
    split at hp
    · cases hp
    · cases hp
      match a.partof with
      | [] => intro s hs; cases hs
      | [n] => exact name_tomlKept n
      | n :: m :: l =>
        intro s hs
        obtain ⟨n, -, rfl⟩ := List.mem_map.1 hs
        exact name_tomlKept n

/-- C68: artifacts in a TOML file survive being written and read again if no text and no `done` has U+001F or U+007F. -/
theorem C68_survives {L : Libs} (hL : TomlLib L) {s : Settings} {f : FilePath} (hf : ArtFileType.fromPath f = some .toml) {ims : List ArtifactIm}
    (hn : (ims.map fun a => key a.name).Nodup) (h : ∀ a ∈ ims, TomlKept a.text ∧ ∀ d, a.done = some d → TomlKept d) : Survives L s f ims := by
  unfold Survives
  rw [hf]
  intro l hl
  rw [hL.writes]
  refine hL.reads _ _ (C68_written ?_ ?_)
  · rw [List.map_map]
    have hn : (l.map fun a => key a.name).Nodup := (hl.map _).nodup_iff.2 hn
    rw [List.Nodup, List.pairwise_map] at hn ⊢
    refine hn.imp fun {a b} h e => h ?_
    have e : a.name.raw = b.name.raw := e
    have h1 := Name.fromStr_raw_self a.name
    rw [e, Name.fromStr_raw_self b.name] at h1
    rw [Res.ok.inj h1]
  · intro x hx
    obtain ⟨a, ha, rfl⟩ := List.mem_map.1 hx
    exact docOf_kept (h a (hl.subset ha)).1 (h a (hl.subset ha)).2

/-- C68: and this is the exact condition: if it does not hold, no reading of TOML gives back these artifacts or any others. -/
theorem C68_survives_iff (L : Libs) {s : Settings} {f : FilePath} (hf : ArtFileType.fromPath f = some .toml) {ims : List ArtifactIm} (hn : (ims.map fun a => key a.name).Nodup) :
    Survives L.withToml s f ims ↔ ∀ a ∈ ims, TomlKept a.text ∧ ∀ d, a.done = some d → TomlKept d := by
  refine ⟨?_, fun h => C68_survives ⟨fun s v h => (tomlArts_iff s v).2 h, fun _ => rfl⟩ hf hn h⟩
  intro h a ha
  unfold Survives at h
  rw [hf] at h
  have h := (tomlArts_iff _ _).1 (h ims (List.Perm.refl _))
  have hk : DocKept (docOf a) := by
    by_contra hk
    exact C68_unreadable (List.mem_map.2 ⟨a, ha, rfl⟩) hk _ h
  refine ⟨?_, hk.2.1⟩
  by_cases e : a.text = []
  · rw [e]; intro c hc; cases hc
  · exact hk.2.2.1 a.text (if_neg e)

section
variable {L : Libs} {num : Str → Bool} {readToml : Str → Option SettingsRaw} {hash : ArtifactIm → HashIm} {dbg : ArtifactIm → Str} {ncpu ncpu' : Nat} {fs fs' : FS}
  {base : FilePath} {s : Settings} {ops : List ArtifactOp} {c : Categorized} {p q : Project}

theorem editable_once (h : ReadsProject L readToml hash ncpu fs base (.ok (c, p))) : ((editable p).map fun a => key a.name).Nodup := by
  obtain ⟨r, ha, he, hp⟩ := reads_editable h
  rw [(hp.map _).nodup_iff, List.map_map]
  have := (C11_reported r.arts).1 ((noError_parts ha).1 he).2.2
  rw [List.Nodup, List.pairwise_map]
  exact this

theorem kept_survives (hY : YamlLib L num) (hT : TomlLib L) {ims : List ArtifactIm} (hn : (ims.map fun a => key a.name).Nodup) (h : ∀ a ∈ ims, ArtKept L.fold num s a)
    (hj : ∀ l, L.jsonRead (L.jsonWrite l) = some l) {a : ArtifactIm} (ha : a ∈ ims) : Survives L s a.file (ims.filter (fun b => decide (b.file = a.file))) := by
  have hb : ∀ b ∈ ims.filter (fun b => decide (b.file = a.file)), ArtKept L.fold num s b ∧ b.file = a.file := fun b hb =>
    ⟨h b (List.mem_filter.1 hb).1, of_decide_eq_true (List.mem_filter.1 hb).2⟩
  have hn' : ((ims.filter (fun b => decide (b.file = a.file))).map fun a => key a.name).Nodup := (List.filter_sublist.map _).nodup hn
  have ha' := h a ha
  unfold ArtKept at ha' hb
  cases hf : ArtFileType.fromPath a.file with
  | none => rw [hf] at ha'; exact ha'.elim
  | some t =>
    cases t with
    | md =>
      rw [hf] at ha'
      refine C67_survives hY hf ha'.1 fun b hb' => ?_
      obtain ⟨h1, h2⟩ := hb b hb'
      rw [h2, hf] at h1
      exact h1.2
    | toml =>
      refine C68_survives hT hf hn' fun b hb' => ?_
      obtain ⟨h1, h2⟩ := hb b hb'
      rw [h2, hf] at h1
      exact h1
    | json =>
      unfold Survives
      rw [hf]
      exact fun l _ => hj _

/-- C68: reading again after a modification gives the project that was returned, for files of all three formats, with conditions only on the texts and the `done` texts of
the artifacts. -/
theorem C68_reload (hY : YamlLib L num) (hT : TomlLib L) (w : FS.WF fs) (hs : SettingsOf readToml fs base s) (hsafe : Safe fs s) (ap : Apart s) (hl : LinkSets ops)
    (once : ∀ op ∈ ops, ∀ a, Brings op a → ReadOnce s a.file)
    (h : Modifies L.withJson readToml hash dbg ncpu fs base ops (some (.ok (c, q))) fs') (kept : ∀ a ∈ editable q, ArtKept L.fold num s a)
    {out : Res Categorized (Categorized × Project)} (h' : ReadsProject L.withJson readToml hash ncpu' fs' base out) :
    (Crashing q ∧ out = .panic) ∨ (¬ Crashing q ∧ ∃ c2 q2, out = .ok (c2, q2) ∧ foldCase q2 = foldCase q) := by
  have hn : ((editable q).map fun a => key a.name).Nodup := by
    obtain ⟨c0, p, c', p', files, cfg, hr, hpl, -, -, -, -, rfl⟩ := modifies_done h
    have := (C25_ids (C25_read_sets hr) hl hpl).2.2.2.2
    exact ((editable_sort (plans_nodup hpl)).map _).nodup_iff.2 this
  exact C46_reload w hs hsafe ap hl once h (fun a ha => kept_survives (L := L.withJson) ⟨hY.reads, hY.writes⟩ ⟨hT.reads, hT.writes⟩ hn kept jsonFile_back ha) h'

/-- C68: formatting keeps every artifact, for files of all three formats, with conditions only on the texts and the `done` texts of the artifacts. -/
theorem C68_fmt (hY : YamlLib L num) (hT : TomlLib L) (w : FS.WF fs) (hs : SettingsOf readToml fs base s) (hsafe : Safe fs s) (ap : Apart s)
    (hr : ReadsProject L.withJson readToml hash ncpu fs base (.ok (c, p))) (hcol : NoCollision hash p []) (kept : ∀ a ∈ editable p, ArtKept L.fold num s a)
    {res : Categorized × Project} (h : Modifies L.withJson readToml hash dbg ncpu' fs base [] (some (.ok res)) fs')
    {n : Nat} {out : Res Categorized (Categorized × Project)} (h' : ReadsProject L.withJson readToml hash n fs' base out) :
    ∃ c2 q2, out = .ok (c2, q2) ∧ foldCase q2 = foldCase p :=
  C46_fmt w hs hsafe ap hr hcol
    (fun _ ha => kept_survives (L := L.withJson) ⟨hY.reads, hY.writes⟩ ⟨hT.reads, hT.writes⟩ (editable_once hr) kept jsonFile_back ha) h h'

end

/-! ## new projects -/

deriving instance DecidableEq for SettingsRaw

set_option maxRecDepth 4000 in
theorem initSettings_text : TomlSettingsText initSettings newSettings := (C68_settings _ _).1 (by decide +kernel)

section
variable {L : Libs} {readToml : Str → Option SettingsRaw} {hash : ArtifactIm → HashIm} {ncpu : Nat} {fs : FS} {work : FilePath}

/-- C68: a new project is read as C56 says and `art check` accepts it, whatever the library does with other texts than those of the grammar. -/
theorem C68_init (hT : TomlSettingsLib readToml) (w : FS.WF fs) {l : List Str} (hl : ∀ c ∈ l, PlainName c) (h : Startable fs (Path l)) (hn : NoOtherArtifacts fs (Path l)) (hc : 0 < ncpu) :
    (∀ out : Res Categorized (Categorized × Project), ReadsProject L readToml hash ncpu (initRun fs (Path l)).2 (Path l) out ↔ out = .ok (⟨[], []⟩, startProject hash (Path l))) ∧
    ∀ status, Checks L readToml hash ncpu (initRun fs (Path l)).2 (Path l) status ↔ status = 0 := by
  have ht := hT _ _ initSettings_text
  refine ⟨fun out => ?_, fun status => C56_check w hl h hn ht hc status⟩
  obtain ⟨fs', e, hs, w'⟩ := C56_makes w h
  rw [e]
  exact C56_project w w' hl h.dir hs hn ht hc out

/-- C68: what there is of the settings when `art init` is killed: nothing or a first part. -/
theorem C68_init_part (w : FS.WF fs) (hd : IMap.get? fs work = some .dir) (hf : IMap.get? fs (work ++ c!"/.art") = none) (k : Nat) :
    IMap.get? (initKilled fs work k) (work ++ c!"/.art/settings.toml") = none ∨
    ∃ t, t <+: initSettings ∧ IMap.get? (initKilled fs work k) (work ++ c!"/.art/settings.toml") = some (.file (.text t)) := by
  obtain ⟨⟨n1, n2, n3⟩, ⟨n4, n5, n6⟩, n7, n8⟩ := paths_ne work
  have hset : IMap.get? fs (settingsFile work) = none := by
    rw [settingsFile_eq]; exact missing_below w (by decide) (by show IMap.get? fs (work ++ c!"/.art") ≠ _; rw [hf]; simp)
  unfold initKilled
  rw [if_pos (initStarts_iff.2 ⟨hd, hf⟩)]
  obtain ⟨⟨x, hx⟩, _⟩ | ⟨_, f1, a1, a2⟩ := makeDir_spec (fs := fs) (p := artDir work) (by rw [parent_art]; exact hd)
  · have hx : IMap.get? fs (work ++ c!"/.art") = _ := hx
    rw [hf] at hx; cases hx
  have b1 : InitStep.apply fs (.mkdir (artDir work)) = some f1 := a1
  have hset1 : IMap.get? f1 (settingsFile work) = none := by rw [a2, if_neg n1]; exact hset
  have hdir : IMap.get? f1 (parentDir (settingsFile work)) = some .dir := by rw [parent_settings, a2, if_pos rfl]
  match k with
  | 0 => exact .inl hset
  | 1 =>
    left
    show IMap.get? (runSteps fs [.mkdir (artDir work)]).2 (settingsFile work) = none
    rw [runSteps_cons, b1]
    exact hset1
  | 2 =>
    right
    refine ⟨[], List.nil_prefix, ?_⟩
    show IMap.get? (runSteps fs [.mkdir (artDir work), .act (.create (settingsFile work))]).2 (settingsFile work) = _
    rw [runSteps_cons, b1]
    have b2 : InitStep.apply f1 (.act (.create (settingsFile work))) = some (IMap.insert f1 (settingsFile work) (.file (.text []))) := by
      unfold InitStep.apply Act.apply
      simp only [hset1, hdir, if_true]
    dsimp only
    rw [runSteps_cons, b2]
    show IMap.get? (IMap.insert f1 (settingsFile work) (.file (.text []))) _ = _
    rw [get?_put, if_pos rfl]
  | j + 3 =>
    right
    refine ⟨initSettings.take j, List.take_prefix _ _, ?_⟩
    have e : (initSteps work).take (j + 3) = .mkdir (artDir work) :: (writeSteps (settingsFile work) (initSettings.take j) ++
        (InitStep.mkdir (designDir work) :: writeSteps (purposeFile work) initPurpose).take (j - initSettings.length)) := by
      unfold initSteps writeSteps
      rw [List.cons_append, List.cons_append, List.take_succ_cons, List.take_succ_cons, List.take_succ_cons, List.take_append, List.map_take, List.length_map]
      rfl
    rw [e, runSteps_cons, b1]
    dsimp only
    rw [runSteps_append]
    obtain ⟨hx, _⟩ | ⟨_, f2, a3, a4⟩ := runSteps_write (fs := f1) (p := settingsFile work) (initSettings.take j) hdir
    · rw [hset1] at hx; cases hx
    rw [a3]
    simp only [if_true]
    refine runSteps_keep (P := fun g => IMap.get? g (settingsFile work) = some (.file (.text (initSettings.take j)))) ?_ (by rw [a4, if_pos rfl])
    intro _ ha g g' hg he
    have ha := List.mem_of_mem_take ha
    unfold writeSteps at ha
    simp only [List.mem_cons, List.mem_map] at ha
    have m4 := Ne.symm n4
    have m5 := Ne.symm n5
    rcases ha with rfl | rfl | rfl | ⟨x, -, rfl⟩
    · unfold InitStep.apply makeDir at he
      dsimp only at he
      split at he
      · cases he; exact hg
      · cases he
      · split at he
        · cases he; rw [get?_put, if_neg m4]; exact hg
        · cases he
    all_goals
      unfold InitStep.apply Act.apply at he
      dsimp only at he
      split at he
      all_goals first
        | (cases he; done)
        | (cases he; exact hg)
        | (cases he; rw [get?_put, if_neg m5]; exact hg)
        | (split at he
           · cases he; rw [get?_put, if_neg m5]; exact hg
           · cases he)

set_option maxRecDepth 8000 in
theorem init_prefixes : ∀ t ∈ initSettings.inits, tomlSettings t = none ∨ tomlSettings t = some newSettings := by decide +kernel

/-- C68: an `art init` that was killed is never taken for a project with other settings: either the settings cannot be read, or they are those of a new project. -/
theorem C68_init_killed (exact : ∀ t, t <+: initSettings → ∀ raw, readToml t = some raw → TomlSettingsText t raw)
    (w : FS.WF fs) (hd : IMap.get? fs work = some .dir) (hf : IMap.get? fs (work ++ c!"/.art") = none) (k : Nat) {path : FilePath} {raw : SettingsRaw}
    (h : loadSettingsRaw readToml (initKilled fs work k) work = some (path, raw)) : raw = newSettings := by
  unfold loadSettingsRaw at h
  split at h
  · dsimp only at h
    rcases C68_init_part w hd hf k with hp | ⟨t, ht, hp⟩
    · rw [hp] at h; cases h
    · rw [hp] at h
      obtain ⟨raw', h1, h2⟩ := Option.map_eq_some_iff.1 h
      cases h2
      have := (C68_settings _ _).2 (exact t ht _ h1)
      rcases init_prefixes t ((List.mem_inits t _).2 ht) with h | h
      · rw [h] at this; cases this
      · rw [h] at this; exact (Option.some.inj this).symm
  · cases h

end

/-! ## examples -/

/-- A text with comments, blank lines, a key in quotes, a literal text, escapes, an unknown field and a list with a comma at the end. -/
example : TomlArtsText c!"# all of it\n\n [ REQ-a ] # first\ntext = \"line\\n\\u0041 \\\"x\\\"\"\n[\"SPC-b\"]\n\tpartof = [ 'REQ-a', \"REQ-c\" , ]\ndone='C:\\dir'\nsize = \"4\""
    [(c!"REQ-a", ⟨none, none, some c!"line\nA \"x\""⟩), (c!"SPC-b", ⟨some c!"C:\\dir", some (.seq [c!"REQ-a", c!"REQ-c"]), none⟩)] := (C68_reads _ _).1 (by decide +kernel)

/-- No artifacts. -/
example : TomlArtsText c!"" [] ∧ TomlArtsText c!"\n# nothing\n" [] := ⟨(C68_reads _ _).1 (by decide +kernel), (C68_reads _ _).1 (by decide +kernel)⟩

/-- Texts that the grammar does not have: a table twice, a field twice, a field without a table, an open quote, an unknown escape, no quotes, two values, two commas, a list
for a text, a table in a table. -/
example : ∀ s ∈ [c!"[REQ-a]\n[REQ-a]", c!"[REQ-a]\ndone = 'x'\ndone = 'y'", c!"done = 'x'", c!"[REQ-a]\ndone = \"x", c!"[REQ-a]\ndone = \"\\q\"", c!"[REQ-a]\ndone = x", c!"[REQ-a]\ndone = 'x' 'y'",
    c!"[REQ-a]\npartof = ['x',,]", c!"[REQ-a]\ndone = ['x']", c!"[REQ-a.b]", c!"[REQ-a", c!"[REQ a]", c!"[REQ-a] x", c!"[]", c!"[REQ-a]\n= 'x'"], ∀ v, ¬ TomlArtsText s v := by
  intro s hs v h
  have h := (C68_reads s v).2 h
  have key : ∀ s ∈ [c!"[REQ-a]\n[REQ-a]", c!"[REQ-a]\ndone = 'x'\ndone = 'y'", c!"done = 'x'", c!"[REQ-a]\ndone = \"x", c!"[REQ-a]\ndone = \"\\q\"", c!"[REQ-a]\ndone = x", c!"[REQ-a]\ndone = 'x' 'y'",
    c!"[REQ-a]\npartof = ['x',,]", c!"[REQ-a]\ndone = ['x']", c!"[REQ-a.b]", c!"[REQ-a", c!"[REQ a]", c!"[REQ-a] x", c!"[]", c!"[REQ-a]\n= 'x'"], tomlArts s = none := by decide +kernel
  rw [key s hs] at h
  cases h

/-- Settings with all fields and both tables. -/
example : TomlSettingsText c!"code_paths = ['src', \"tools\"]\nexclude_code_paths = []\nartifact_paths = ['design']\nexclude_artifact_paths = ['design/old',]\ncode_url = 'http://x/{file}'\n[parse.md_name]\ntype = 'prefix'\nvalue = 'art:'\n[format . \"md_attrs\"]\ntype = 'code'\n"
    ⟨[c!"design"], [c!"design/old"], [c!"src", c!"tools"], [], some c!"http://x/{file}", .pre c!"art:", .code none⟩ := (C68_settings _ _).1 (by decide +kernel)

/-- Settings that cannot be read: a missing field, one twice, a text for a list. -/
example : ∀ s ∈ [c!"", c!"artifact_paths = []\ncode_paths = []\nexclude_code_paths = []", c!"artifact_paths = []\nartifact_paths = []\nexclude_artifact_paths = []\ncode_paths = []\nexclude_code_paths = []",
    c!"artifact_paths = 'design'\nexclude_artifact_paths = []\ncode_paths = []\nexclude_code_paths = []"], ∀ raw, ¬ TomlSettingsText s raw := by
  intro s hs raw h
  have h := (C68_settings s raw).2 h
  have key : ∀ s ∈ [c!"", c!"artifact_paths = []\ncode_paths = []\nexclude_code_paths = []", c!"artifact_paths = []\nartifact_paths = []\nexclude_artifact_paths = []\ncode_paths = []\nexclude_code_paths = []",
    c!"artifact_paths = 'design'\nexclude_artifact_paths = []\ncode_paths = []\nexclude_code_paths = []"], tomlSettings s = none := by decide +kernel
  rw [key s hs] at h
  cases h

/-- What is written. -/
example : String.ofList (tomlDocs [(c!"REQ-a", ⟨none, none, some c!"say \"hi\"\n\tthere"⟩), (c!"SPC-b", ⟨some c!"x\\", some (.seq [c!"REQ-a", c!"REQ-c"]), none⟩), (c!"TST-d", ⟨none, some (.str c!"SPC-b"), none⟩)]) =
    "[REQ-a]\ntext = \"say \\\"hi\\\"\\n\\tthere\"\n\n[SPC-b]\ndone = \"x\\\\\"\npartof = [\"REQ-a\", \"REQ-c\"]\n\n[TST-d]\npartof = \"SPC-b\"\n" := by decide +kernel

/-- A case that meets the hypotheses of `C68_written`. -/
example : TomlArtsText (tomlDocs [(c!"REQ-a", ⟨none, none, some c!"say \"hi\"\n\tthere"⟩), (c!"SPC b", ⟨some [Char.ofNat 7], some (.seq [c!"REQ-a", c!"REQ-c"]), none⟩)])
    [(c!"REQ-a", ⟨none, none, some c!"say \"hi\"\n\tthere"⟩), (c!"SPC b", ⟨some [Char.ofNat 7], some (.seq [c!"REQ-a", c!"REQ-c"]), none⟩)] := by
  refine C68_written (by decide) ?_
  intro x hx
  simp only [List.mem_cons, List.not_mem_nil, or_false] at hx
  rcases hx with rfl | rfl
  · refine ⟨by decide, by unfold TomlKept; decide, fun s h => (nomatch h), ?_, fun p h => (nomatch h)⟩
    intro s h
    cases h
    unfold TomlKept
    decide
  · refine ⟨by decide, by unfold TomlKept; decide, ?_, fun s h => (nomatch h), ?_⟩
    · intro s h
      cases h
      unfold TomlKept
      decide
    · intro p h
      cases h
      unfold TomlKept
      decide

/-- A text that is not kept. -/
example : ¬ TomlKept [Char.ofNat 0x1f] ∧ ¬ TomlKept ['a', Char.ofNat 0x7f] ∧ TomlKept [Char.ofNat 0x1e, Char.ofNat 0x80] := by
  unfold TomlKept
  decide

/-- The library that reads nothing but the grammar meets the hypotheses of `C68_init` and of `C68_init_killed`. -/
example : TomlSettingsLib tomlSettings ∧ ∀ t, t <+: initSettings → ∀ raw, tomlSettings t = some raw → TomlSettingsText t raw :=
  ⟨fun s raw h => (C68_settings s raw).2 h, fun t _ raw h => (C68_settings t raw).1 h⟩

set_option maxRecDepth 8000 in
/-- Killed early the settings cannot be read, killed late they can. -/
example : ((loadSettingsRaw tomlSettings (initKilled [(c!"", .dir), (c!"/p", .dir)] c!"/p" 2) c!"/p").isNone ∧ (loadSettingsRaw tomlSettings (initKilled [(c!"", .dir), (c!"/p", .dir)] c!"/p" 200) c!"/p").isNone) ∧
    (loadSettingsRaw tomlSettings (initKilled [(c!"", .dir), (c!"/p", .dir)] c!"/p" (initSettings.length + 3)) c!"/p").map (·.2) = some newSettings := by decide +kernel

/-- The libraries with YAML and TOML. -/
def exAllLibs : Libs := (exLibs.withYaml exNum).withToml

theorem exAllLibs_ok : YamlLib exAllLibs exNum ∧ TomlLib exAllLibs :=
  ⟨⟨fun s v h => (yamlText_iff s v).2 h, fun _ => rfl⟩, ⟨fun s v h => (tomlArts_iff s v).2 h, fun _ => rfl⟩⟩

/-- A project with a file of each format. -/
def exThree (t : Str) : FS :=
  [(c!"", .dir), (c!"/p", .dir), (c!"/p/.art", .dir), (c!"/p/.art/settings.toml", .file (.text c!"")), (c!"/p/design", .dir),
   (c!"/p/design/a.md", .file (.text c!"# REQ-a\ndone: 'by: hand'\n###\nsay hi\n")), (c!"/p/design/b.toml", .file (.text t)),
   (c!"/p/design/c.json", .file (.text c!"{\"TST-c\": {\"text\": \"see \\u001f\"}}")), (c!"/p/src", .dir)]

/-- The TOML file, with a comment and a text on one line. -/
def exThreeIn : Str := c!"# b\n[SPC-b]\n partof = 'REQ-a' # see\n text = \"two\\nlines\"\n"

/-- The same with U+001F in the text. -/
def exThreeOut : Str := c!"# b\n[SPC-b]\n partof = 'REQ-a' # see\n text = \"two\\u001Flines\"\n"

/-- The artifacts of the example. -/
def exThreeArts (t : Str) : List ArtifactIm :=
  [⟨Name.lit c!"REQ-a", c!"/p/design/a.md", [], some c!"by: hand", c!"say hi"⟩, ⟨Name.lit c!"SPC-b", c!"/p/design/b.toml", [Name.lit c!"REQ-a"], none, t⟩,
   ⟨Name.lit c!"TST-c", c!"/p/design/c.json", [], none, c!"see " ++ [Char.ofNat 0x1f]⟩]

theorem exThree_settings (t : Str) : SettingsOf (fun _ => some exRaw) (exThree t) c!"/p" exS := ⟨exS.settingsPath, exRaw, rfl, rfl⟩

set_option maxRecDepth 4000 in
/-- A case that meets the hypotheses of `C68_fmt`. -/
theorem exThree_kept : ∃ c p res fs' c2 q2, FS.WF (exThree exThreeIn) ∧ Safe (exThree exThreeIn) exS ∧
    ReadsProject exAllLibs.withJson (fun _ => some exRaw) exId 4 (exThree exThreeIn) c!"/p" (.ok (c, p)) ∧ NoCollision exId p [] ∧
    (∀ a ∈ editable p, ArtKept exAllLibs.fold exNum exS a) ∧
    Modifies exAllLibs.withJson (fun _ => some exRaw) exId (fun _ => []) 4 (exThree exThreeIn) c!"/p" [] (some (.ok res)) fs' ∧
    shown fs' = [("/p/design/a.md", "# REQ-a\ndone: \"by: hand\"\n###\nsay hi"), ("/p/design/b.toml", "[SPC-b]\npartof = \"REQ-a\"\ntext = \"two\\nlines\\n\"\n"),
      ("/p/design/c.json", "{\"TST-c\":{\"done\":null,\"partof\":null,\"text\":\"see \\u001f\"}}")] ∧
    ReadsProject exAllLibs.withJson (fun _ => some exRaw) exId 4 fs' c!"/p" (.ok (c2, q2)) ∧ editable q2 = editable p := by
  obtain ⟨c, p, res, fs', c2, q2, h1, h2, h3, h4, h5, ht, h6, h7, h8⟩ := exFmt_run (L := exAllLibs.withJson) (arts := exThreeArts c!"two\nlines\n") (arts' := exThreeArts c!"two\nlines\n")
    (t := [("/p/design/a.md", "# REQ-a\ndone: \"by: hand\"\n###\nsay hi"), ("/p/design/b.toml", "[SPC-b]\npartof = \"REQ-a\"\ntext = \"two\\nlines\\n\"\n"),
      ("/p/design/c.json", "{\"TST-c\":{\"done\":null,\"partof\":null,\"text\":\"see \\u001f\"}}")])
    (exThree_settings exThreeIn) (by decide +kernel) (by decide +kernel) (by decide +kernel) (by decide +kernel) (by decide +kernel) (by decide +kernel) (by decide +kernel)
  refine ⟨c, p, res, fs', c2, q2, h1, exSafe_of h1 (by decide +kernel) (by decide +kernel), h2, noCollision_of ?_, ?_, h5, ht, h6, by rw [h4, h8]⟩
  · rw [h4]; decide +kernel
  · rw [h4]
    intro a ha
    simp only [exThreeArts, List.mem_cons, List.not_mem_nil, or_false] at ha
    rcases ha with rfl | rfl | rfl
    · have e : ArtFileType.fromPath c!"/p/design/a.md" = some .md := by decide +kernel
      unfold ArtKept
      simp only [e]
      refine ⟨⟨by decide, by intro p hp; cases hp⟩, fun _ => textOk_of (by decide) (by decide) (by decide) (by decide), ?_⟩
      intro d hd
      cases hd
      exact .inl (by decide)
    · have e : ArtFileType.fromPath c!"/p/design/b.toml" = some .toml := by decide +kernel
      unfold ArtKept
      simp only [e]
      unfold TomlKept
      exact ⟨by decide, fun d hd => (nomatch hd)⟩
    · have e : ArtFileType.fromPath c!"/p/design/c.json" = some .json := by decide +kernel
      unfold ArtKept
      simp only [e]

set_option maxRecDepth 4000 in
/-- With U+001F in a text of the TOML file the project is read without an error, `art fmt` reports success, and then the project cannot be read any more. -/
theorem C68_fmt_lost : ∃ fs c p res fs' e, FS.WF fs ∧ ReadsProject exAllLibs.withJson (fun _ => some exRaw) exId 4 fs c!"/p" (.ok (c, p)) ∧ c.error = [] ∧
    (editable p).map (·.text) = [c!"say hi", c!"two" ++ Char.ofNat 0x1f :: c!"lines", c!"see " ++ [Char.ofNat 0x1f]] ∧
    Modifies exAllLibs.withJson (fun _ => some exRaw) exId (fun _ => []) 4 fs c!"/p" [] (some (.ok res)) fs' ∧
    ReadsProject exAllLibs.withJson (fun _ => some exRaw) exId 4 fs' c!"/p" (.err e) := by
  have hs := exThree_settings exThreeOut
  have hc : (walkCode (exThree exThreeOut) exS).countP (fun f => (codeSent exAllLibs.withJson (exThree exThreeOut) f).dead) < 4 := by decide +kernel
  have ha : (walkArtifacts (exThree exThreeOut) exS).countP (fun f => (artSent exAllLibs.withJson exS.pre (exThree exThreeOut) f).dead) < 4 := by decide +kernel
  have hr := readNow_reads (L := exAllLibs.withJson) (hash := exId) (ncpu := 4) hs hc ha
  have h1 : exSeen exAllLibs.withJson (exThree exThreeOut) = some ([], exThreeArts (c!"two" ++ Char.ofNat 0x1f :: c!"lines")) := by decide +kernel
  have h2 : (modifyNow exAllLibs.withJson exId (exThree exThreeOut) exS [] 1000).map (fun r => (r.2.1,
      decide ((loadSettingsRaw (fun _ => some exRaw) r.2.2 c!"/p").map (·.1) = some exS.settingsPath ∧ (walkCode r.2.2 exS).countP (fun f => (codeSent exAllLibs.withJson r.2.2 f).dead) < 4 ∧
        (walkArtifacts r.2.2 exS).countP (fun f => (artSent exAllLibs.withJson exS.pre r.2.2 f).dead) < 4),
      match readNow exAllLibs.withJson exId r.2.2 exS with | .err _ => true | _ => false)) = some (.done, true, true) := by decide +kernel
  unfold exSeen at h1
  cases hn : readNow exAllLibs.withJson exId (exThree exThreeOut) exS with
  | err e => rw [hn] at h1; cases h1
  | panic => rw [hn] at h1; cases h1
  | ok r =>
    obtain ⟨c, p⟩ := r
    rw [hn] at hr h1
    simp only [Option.some.injEq, Prod.mk.injEq] at h1
    obtain ⟨⟨files, ph, fs'⟩, h2, h3⟩ := Option.map_eq_some_iff.1 h2
    simp only [Prod.mk.injEq, decide_eq_true_eq] at h3
    obtain ⟨rfl, ⟨hload, h5, h6⟩, h7⟩ := h3
    obtain ⟨_, out, ⟨res, rfl⟩, hm⟩ := modifyNow_sound (ncpu := 4) hs hc ha h2
    have hs' : SettingsOf (fun _ => some exRaw) fs' c!"/p" exS := by
      refine ⟨exS.settingsPath, exRaw, ?_, rfl⟩
      obtain ⟨⟨path, raw⟩, e1, e2⟩ := Option.map_eq_some_iff.1 hload
      have e2 : path = exS.settingsPath := e2
      subst e2
      rw [e1]
      unfold loadSettingsRaw at e1
      split at e1
      · dsimp only at e1
        split at e1
        · cases e1; rfl
        · cases e1
      · cases e1
    have hr' := readNow_reads (L := exAllLibs.withJson) (hash := exId) (ncpu := 4) hs' h5 h6
    cases hn' : readNow exAllLibs.withJson exId fs' exS with
    | ok r' => rw [hn'] at h7; cases h7
    | panic => rw [hn'] at h7; cases h7
    | err e =>
      rw [hn'] at hr'
      refine ⟨_, c, p, res, fs', e, FS.isTree_wf (by decide +kernel), hr, h1.1, ?_, hm, hr'⟩
      rw [h1.2]
      rfl

end Art
