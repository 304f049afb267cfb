import Verif.Lemmas.Config
import Verif.Props.Export
import Verif.Props.Toml

/-!
# C77: what a settings file says
-/

namespace Art.Conf
open Art.Spec Art.Spec.Export

/-! ## reading -/

/-- C77: the reader gives exactly what the text says. -/
theorem C77_reads (s : Str) (raw : SettingsRaw) (ex : WireExport) : confSettings s = some (raw, ex) ↔ ConfIs s raw ex := confSettings_iff s raw ex

/-- C77: no text says two things. -/
theorem C77_unambiguous {s : Str} {raw raw' : SettingsRaw} {ex ex' : WireExport} (h : ConfIs s raw ex) (h' : ConfIs s raw' ex') : raw = raw' ∧ ex = ex' := by
  have a := (C77_reads _ _ _).2 h
  rw [(C77_reads _ _ _).2 h'] at a
  cases a
  exact ⟨rfl, rfl⟩

/-- A text has at most one meaning as tables. -/
theorem docIs_unique {s : Str} {d d' : Doc} (h : DocIs s d) (h' : DocIs s d') : d = d' := by
  have a := (confText_iff _ _).2 h
  rw [(confText_iff _ _).2 h'] at a
  cases a
  rfl

section
variable {d d' : Doc}

theorem Agree.symm (A : Agree d d') : Agree d' d := ⟨fun h k v hk => (A.values h k v hk).symm, fun f hf => (A.how f hf).symm, A.part.symm⟩

theorem text_agree (A : Agree d d') {h : List Str} {k : Str} (hk : Known h k) (o : Option Str) : TextIs d h k o ↔ TextIs d' h k o := by
  unfold TextIs
  simp only [A.values h k _ hk]

theorem name_agree (A : Agree d d') {h : List Str} (hh : IsHow h) (m : MdName) : NameIs d h m ↔ NameIs d' h m := by
  unfold NameIs
  rw [A.how h hh]
  simp only [A.values h c!"type" _ (.inr ⟨hh, by simp⟩), A.values h c!"value" _ (.inr ⟨hh, by simp⟩)]

theorem attrs_agree (A : Agree d d') (m : MdAttrs) : AttrsAre d m ↔ AttrsAre d' m := by
  have hh : IsHow [c!"format", c!"md_attrs"] := .inr (.inl rfl)
  unfold AttrsAre
  rw [A.how _ hh]
  simp only [A.values _ c!"type" _ (.inr ⟨hh, by simp⟩), text_agree A (k := c!"prefix") (.inr ⟨hh, by simp⟩)]

theorem family_agree (A : Agree d d') (m : MdFamily) : FamilyIs d m ↔ FamilyIs d' m := by
  have hh : IsHow [c!"export", c!"md_family"] := .inr (.inr (.inl rfl))
  unfold FamilyIs
  rw [A.how _ hh]
  simp only [A.values _ c!"type" _ (.inr ⟨hh, by simp⟩)]

theorem dot_agree (A : Agree d d') (m : MdDot) : DotIs d m ↔ DotIs d' m := by
  have hh : IsHow [c!"export", c!"md_dot"] := .inr (.inr (.inr (.inl rfl)))
  unfold DotIs
  rw [A.how _ hh]
  simp only [A.values _ c!"type" _ (.inr ⟨hh, by simp⟩), A.values _ c!"pre" _ (.inr ⟨hh, by simp⟩), A.values _ c!"post" _ (.inr ⟨hh, by simp⟩)]

theorem Agree.means (A : Agree d d') {raw : SettingsRaw} {ex : WireExport} (M : Means d raw ex) : Means d' raw ex where
  artifactPaths := (A.values _ _ _ (.inl (by unfold IsValue; tauto))).1 M.artifactPaths
  excludeArtifactPaths := (A.values _ _ _ (.inl (by unfold IsValue; tauto))).1 M.excludeArtifactPaths
  codePaths := (A.values _ _ _ (.inl (by unfold IsValue; tauto))).1 M.codePaths
  excludeCodePaths := (A.values _ _ _ (.inl (by unfold IsValue; tauto))).1 M.excludeCodePaths
  codeUrl := (text_agree A (.inl (by unfold IsValue; tauto)) _).1 M.codeUrl
  mdName := (name_agree A (.inl rfl) _).1 M.mdName
  mdAttrs := (attrs_agree A _).1 M.mdAttrs
  header := (text_agree A (.inl (by unfold IsValue; tauto)) _).1 M.header
  toc := by
    have hk : Known [c!"export"] c!"md_toc" := .inl (by unfold IsValue; tauto)
    have := M.toc
    simp only [A.values _ _ _ hk, A.part] at this
    exact this
  family := (family_agree A _).1 M.family
  dot := (dot_agree A _).1 M.dot
  name := (name_agree A (by unfold IsHow; tauto) _).1 M.name

end

/-- C77: only the known fields count. Two texts that TOML allows, whose fields have the right kinds, and that agree on the known fields, say the same; a name that is not known, such as one that is misspelt, is never noticed. -/
theorem C77_ignored {s s' : Str} {d d' : Doc} (h : DocIs s d) (h' : DocIs s' d') (hl : Legal d) (hl' : Legal d') (ht : Typed d) (ht' : Typed d') (A : Agree d d') (raw : SettingsRaw) (ex : WireExport) :
    ConfIs s raw ex ↔ ConfIs s' raw ex := by
  constructor
  · rintro ⟨d1, h1, -, -, M⟩
    cases docIs_unique h h1
    exact ⟨d', h', hl', ht', A.means M⟩
  · rintro ⟨d1, h1, -, -, M⟩
    cases docIs_unique h' h1
    exact ⟨d, h, hl, ht, A.symm.means M⟩

/-! ## adding a line -/

/-- The tables of some lines. -/
def docLines (ys : List CLine) : Doc := ([], (confFold ys).1) :: (confFold ys).2

theorem docIs_lines {ls : List Str} (h0 : ls ≠ []) (hn : ∀ l ∈ ls, '\n' ∉ l) (d : Doc) : DocIs (joinLines ls) d ↔ ∃ ys, List.Forall₂ ConfLineIs ls ys ∧ d = docLines ys := by
  rw [← confText_iff]
  unfold confText
  rw [splitLf_join h0 hn, Option.map_eq_some_iff]
  refine exists_congr fun ys => ?_
  rw [mapM_forall₂]
  constructor
  · rintro ⟨h, e⟩
    exact ⟨h.imp fun l y h => (confLine_iff l y).1 h, e.symm⟩
  · rintro ⟨h, e⟩
    exact ⟨h.imp fun l y h => (confLine_iff l y).2 h, e.symm⟩

theorem confLineIs_unique {l : Str} {y y' : CLine} (h : ConfLineIs l y) (h' : ConfLineIs l y') : y = y' := by
  have a := (confLine_iff _ _).2 h
  rw [(confLine_iff _ _).2 h'] at a
  cases a
  rfl

theorem no_header {ys : List CLine} (h : ∀ y ∈ ys, ∀ h, y ≠ .header h) : ∃ es, EntriesAre ys es := by
  induction ys with
  | nil => exact ⟨[], .nil⟩
  | cons y ys ih =>
    obtain ⟨es, he⟩ := ih fun z hz => h z (by simp [hz])
    cases y with
    | skip => exact ⟨es, .skip he⟩
    | pair k v => exact ⟨_, .pair he⟩
    | header x => exact absurd rfl (h _ (by simp) x)

theorem confFold_header (a : List CLine) (h : List Str) (z : List CLine) :
    confFold (a ++ .header h :: z) = ((confFold a).1, (confFold a).2 ++ (h, (confFold z).1) :: (confFold z).2) := by
  induction a with
  | nil => rfl
  | cons y a ih =>
    cases y with
    | skip => exact ih
    | pair k v =>
      show ((k, v) :: (confFold (a ++ .header h :: z)).1, (confFold (a ++ .header h :: z)).2) = _
      rw [ih]
      rfl
    | header x =>
      show ([], (x, (confFold (a ++ .header h :: z)).1) :: (confFold (a ++ .header h :: z)).2) = _
      rw [ih]
      rfl

theorem docLines_header (a : List CLine) (h : List Str) (z : List CLine) : docLines (a ++ .header h :: z) = docLines a ++ (h, (confFold z).1) :: (confFold z).2 := by
  unfold docLines
  rw [confFold_header]
  rfl

theorem forall₂_cut {α β : Type} {R : α → β → Prop} {a b : List α} {l : List β} (h : List.Forall₂ R (a ++ b) l) : ∃ l1 l2, List.Forall₂ R a l1 ∧ List.Forall₂ R b l2 ∧ l = l1 ++ l2 := by
  induction a generalizing l with
  | nil => exact ⟨[], l, .nil, h, rfl⟩
  | cons x a ih =>
    cases h with
    | cons h1 h2 =>
      obtain ⟨l1, l2, h3, h4, rfl⟩ := ih h2
      exact ⟨_ :: l1, l2, .cons h1 h3, h4, rfl⟩

theorem docLines_insert {a : List Str} {h : List Str} (hu : Under a h) {ya : List CLine} (ha : List.Forall₂ ConfLineIs a ya) (yb : List CLine) (k : Str) (v : Val) :
    ∃ pre e1 e2 post, docLines (ya ++ yb) = pre ++ (h, e1 ++ e2) :: post ∧ docLines (ya ++ .pair k v :: yb) = pre ++ (h, e1 ++ (k, v) :: e2) :: post := by
  have noH : ∀ {a : List Str} {ya : List CLine}, List.Forall₂ ConfLineIs a ya → (∀ l ∈ a, ∀ h', ¬ ConfLineIs l (.header h')) → ∃ es, EntriesAre ya es := by
    intro a ya ha hn
    refine no_header fun y hy x e => ?_
    subst e
    obtain ⟨l, hl, h1⟩ := forall₂_mem_right ha hy
    exact hn l hl x h1
  rcases hu with ⟨rfl, hn⟩ | ⟨a1, l, a2, rfl, hl, hn⟩
  · obtain ⟨es, he⟩ := noH ha hn
    refine ⟨[], es, (confFold yb).1, (confFold yb).2, ?_, ?_⟩
    · unfold docLines
      rw [confFold_entries he]
      rfl
    · unfold docLines
      rw [confFold_entries he]
      rfl
  · obtain ⟨y1, y2, h1, h2, rfl⟩ := forall₂_cut ha
    cases h2 with
    | cons h3 h2 =>
      cases confLineIs_unique hl h3
      rename_i y2
      obtain ⟨es, he⟩ := noH h2 hn
      refine ⟨docLines y1, es, (confFold yb).1, (confFold yb).2, ?_, ?_⟩
      · rw [List.append_assoc, List.cons_append, docLines_header, confFold_entries he]
      · rw [List.append_assoc, List.cons_append, docLines_header, confFold_entries he]
        rfl

theorem says_insert {pre post : Doc} {h : List Str} {e1 e2 : Entries} {k : Str} {v : Val} {h' : List Str} {k' : Str} {v' : Val} :
    Says (pre ++ (h, e1 ++ (k, v) :: e2) :: post) h' k' v' ↔ Says (pre ++ (h, e1 ++ e2) :: post) h' k' v' ∨ (h' = h ∧ k' = k ∧ v' = v) := by
  unfold Says
  constructor
  · rintro ⟨es, h1, h2⟩
    rcases List.mem_append.1 h1 with h1 | h1
    · exact .inl ⟨es, by simp [h1], h2⟩
    · rcases List.mem_cons.1 h1 with h1 | h1
      · cases h1
        rcases List.mem_append.1 h2 with h2 | h2
        · exact .inl ⟨_, List.mem_append_right _ (List.mem_cons_self ..), List.mem_append_left _ h2⟩
        · rcases List.mem_cons.1 h2 with h2 | h2
          · cases h2
            exact .inr ⟨rfl, rfl, rfl⟩
          · exact .inl ⟨_, List.mem_append_right _ (List.mem_cons_self ..), List.mem_append_right _ h2⟩
      · exact .inl ⟨es, by simp [h1], h2⟩
  · rintro (⟨es, h1, h2⟩ | ⟨rfl, rfl, rfl⟩)
    · rcases List.mem_append.1 h1 with h1 | h1
      · exact ⟨es, by simp [h1], h2⟩
      · rcases List.mem_cons.1 h1 with h1 | h1
        · cases h1
          rcases List.mem_append.1 h2 with h2 | h2
          · exact ⟨_, List.mem_append_right _ (List.mem_cons_self ..), by simp [h2]⟩
          · exact ⟨_, List.mem_append_right _ (List.mem_cons_self ..), by simp [h2]⟩
        · exact ⟨es, by simp [h1], h2⟩
    · exact ⟨_, List.mem_append_right _ (List.mem_cons_self ..), by simp⟩

theorem there_insert {pre post : Doc} {h : List Str} {es es' : Entries} {h' : List Str} : There (pre ++ (h, es) :: post) h' ↔ There (pre ++ (h, es') :: post) h' := by
  unfold There
  simp only [List.mem_append, List.mem_cons, or_and_right, exists_or, exists_eq_left]

/-- C77: a line for a key that is not known, anywhere in the file, changes nothing, as long as it stands for no table and is not there already. -/
theorem C77_misspelt {a b : List Str} {l : Str} {h : List Str} {k : Str} {v : Val} {d : Doc} {raw : SettingsRaw} {ex : WireExport} (hab : a ++ b ≠ []) (hn : ∀ x ∈ a ++ l :: b, '\n' ∉ x)
    (hl : ConfLineIs l (.pair k v)) (hu : Under a h) (hd : DocIs (joinLines (a ++ b)) d) (fresh : (∀ v', ¬ Says d h k v') ∧ ¬ There d (h ++ [k])) (hk : ¬ Known h k)
    (hw : ¬ IsHow (h ++ [k]) ∧ h ++ [k] ≠ [c!"parse"] ∧ h ++ [k] ≠ [c!"format"] ∧ h ++ [k] ≠ [c!"export"]) (hc : ConfIs (joinLines (a ++ b)) raw ex) :
    ConfIs (joinLines (a ++ l :: b)) raw ex := by
  obtain ⟨d0, hd0, L, T, M⟩ := hc
  cases docIs_unique hd hd0
  obtain ⟨ys, hys, e⟩ := (docIs_lines hab (fun x hx => hn x (by simp only [List.mem_append, List.mem_cons] at hx ⊢; tauto)) d).1 hd
  obtain ⟨ya, yb, ha, hb, rfl⟩ := forall₂_cut hys
  obtain ⟨pre, e1, e2, post, i1, i2⟩ := docLines_insert hu ha yb k v
  rw [i1] at e
  subst e
  have hS : ∀ h' k' v', Says (docLines (ya ++ .pair k v :: yb)) h' k' v' ↔ Says (pre ++ (h, e1 ++ e2) :: post) h' k' v' ∨ (h' = h ∧ k' = k ∧ v' = v) := by
    intro h' k' v'
    rw [i2]
    exact says_insert
  have hT : ∀ h', There (docLines (ya ++ .pair k v :: yb)) h' ↔ There (pre ++ (h, e1 ++ e2) :: post) h' := by
    intro h'
    rw [i2]
    exact there_insert
  refine ⟨docLines (ya ++ .pair k v :: yb), (docIs_lines (by simp) hn _).2 ⟨_, List.rel_append ha (.cons hl hb), rfl⟩, ⟨?_, ?_, ?_⟩, ⟨?_, ?_, ?_⟩, ?_⟩
  · rw [i2]
    have := L.tables
    simpa using this
  · intro t ht
    rw [i2] at ht
    have keep : ∀ t ∈ pre ++ (h, e1 ++ e2) :: post, (t.2.map (·.1)).Nodup := L.keys
    rcases List.mem_append.1 ht with ht | ht
    · exact keep t (by simp [ht])
    · rcases List.mem_cons.1 ht with rfl | ht
      · have hk1 : ∀ v', (k, v') ∉ e1 ++ e2 := fun v' hv => fresh.1 v' ⟨_, by simp, hv⟩
        have := keep (h, e1 ++ e2) (by simp)
        simp only [List.map_append, List.map_cons] at this ⊢
        rw [List.nodup_middle, List.nodup_cons]
        refine ⟨?_, this⟩
        rw [← List.map_append, List.mem_map]
        rintro ⟨⟨k1, v1⟩, h1, rfl⟩
        exact hk1 v1 h1
      · exact keep t (by simp [ht])
  · intro h' k' v' hs
    rw [hT]
    rcases (hS _ _ _).1 hs with hs | ⟨rfl, rfl, rfl⟩
    · exact L.apart _ _ _ hs
    · exact fresh.2
  · intro h' k' v' hs
    rcases (hS _ _ _).1 hs with hs | ⟨rfl, rfl, rfl⟩
    · exact T.noValue _ _ _ hs
    · exact hw
  · intro f hf
    rw [hT]
    exact T.noTable f hf
  · intro f hf k'
    rw [hT]
    exact T.flat f hf k'
  · refine Agree.means ⟨fun h' k' v' hk' => ?_, fun f _ => (hT f).symm, (hT _).symm⟩ M
    rw [hS]
    constructor
    · exact .inl
    · rintro (hs | ⟨rfl, rfl, rfl⟩)
      · exact hs
      · exact absurd hk' hk

/-! ## the table of contents -/

/-- C77: there is a table of contents exactly if the file has a table for exports, or one in it, and does not say `md_toc = false` there. So what a missing `md_toc` means depends on whether the table is there. -/
theorem C77_toc {s : Str} {d : Doc} {raw : SettingsRaw} {ex : WireExport} (h : ConfIs s raw ex) (hd : DocIs s d) :
    ex.toc = true ↔ There d [c!"export"] ∧ ¬ Says d [c!"export"] c!"md_toc" (.flag false) := by
  obtain ⟨d0, hd0, L, T, M⟩ := h
  cases docIs_unique hd hd0
  rcases M.toc with h1 | ⟨h1, h2⟩
  · constructor
    · intro ht
      rw [ht] at h1
      refine ⟨says_there h1, fun h2 => ?_⟩
      have a := (valueOf_iff L _ _ _).2 h1
      rw [(valueOf_iff L _ _ _).2 h2] at a
      cases a
    · rintro ⟨-, h2⟩
      cases e : ex.toc with
      | true => rfl
      | false => rw [e] at h1; exact absurd h1 h2
  · rw [h2]
    exact ⟨fun h => ⟨h, h1 _⟩, fun h => h.1⟩

/-- C77: writing nothing but the header `[export]` at the end of a file without such a table adds the table of contents and changes nothing else. -/
theorem C77_toc_on {s : Str} {d : Doc} {raw : SettingsRaw} {ex : WireExport} (h : ConfIs s raw ex) (hd : DocIs s d) (hn : ¬ There d [c!"export"]) :
    ex = WireExport.default ∧ ConfIs (s ++ c!"\n[export]") raw { WireExport.default with toc := true } := by
  obtain ⟨d0, hd0, L, T, M⟩ := h
  cases docIs_unique hd hd0
  have h1 : ∀ k v, ¬ Says d [c!"export"] k v := fun k v h => hn (says_there h)
  have h2 : ∀ x, ¬ There d [c!"export", x] := fun x h => hn (there_short ⟨[x], rfl⟩ h)
  have hex : ex = WireExport.default := by
    have a := (exportOf_iff L T ex).2 ⟨M.header, M.toc, M.family, M.dot, M.name⟩
    unfold exportOf at a
    rw [if_neg (fun h => hn ((there_any L).1 h))] at a
    exact (Option.some.inj a).symm
  refine ⟨hex, ?_⟩
  subst hex
  obtain ⟨ls, ys, a, b, root, ts, h0, hls, rfl, h3, rfl, -, -, -⟩ := id hd
  obtain ⟨ys, h3, e⟩ := (docIs_lines h0 hls d).1 hd
  have hD : DocIs (joinLines ls ++ c!"\n[export]") (d ++ [([c!"export"], [])]) := by
    rw [show joinLines ls ++ c!"\n[export]" = joinLines (ls ++ [c!"[export]"]) from (joinLines_append h0 (l' := [c!"[export]"]) (by simp)).symm]
    refine (docIs_lines (by simp) ?_ _).2 ⟨ys ++ [.header [c!"export"]], List.rel_append h3 (.cons ((confLine_iff _ _).1 (by decide +kernel)) .nil), ?_⟩
    · intro l hl
      rcases List.mem_append.1 hl with hl | hl
      · exact hls l hl
      · rw [List.mem_singleton.1 hl]; decide
    · rw [docLines_header, e]; rfl
  have hS : ∀ h k v, Says (d ++ [([c!"export"], [])]) h k v ↔ Says d h k v := by
    intro h k v
    constructor
    · rintro ⟨es, h1, h2⟩
      rcases List.mem_append.1 h1 with h1 | h1
      · exact ⟨es, h1, h2⟩
      · cases List.mem_singleton.1 h1
        cases h2
    · rintro ⟨es, h1, h2⟩
      exact ⟨es, by simp [h1], h2⟩
  have hT : ∀ h, There (d ++ [([c!"export"], [])]) h ↔ There d h ∨ h <+: [c!"export"] := by
    intro h
    simp only [There, List.mem_append, List.mem_singleton, or_and_right, exists_or, exists_eq_left]
  have hT2 : ∀ x y, There (d ++ [([c!"export"], [])]) [x, y] ↔ There d [x, y] := by
    intro x y
    rw [hT]
    refine ⟨fun h => h.resolve_right fun h => ?_, .inl⟩
    have := h.length_le
    simp at this
  have hTe : There (d ++ [([c!"export"], [])]) [c!"export"] := (hT _).2 (.inr (List.prefix_refl _))
  refine ⟨_, hD, ⟨?_, ?_, ?_⟩, ⟨?_, ?_, ?_⟩, ?_⟩
  · rw [List.map_append, List.nodup_append]
    refine ⟨L.tables, by simp, ?_⟩
    intro x hx y hy
    obtain ⟨t, ht, rfl⟩ := List.mem_map.1 hx
    simp only [List.map_cons, List.map_nil, List.mem_singleton] at hy
    subst hy
    intro e
    exact hn ⟨t, ht, by rw [e]⟩
  · intro t ht
    rcases List.mem_append.1 ht with ht | ht
    · exact L.keys t ht
    · cases List.mem_singleton.1 ht
      exact List.nodup_nil
  · intro h k v hs
    rw [hS] at hs
    rw [hT]
    rintro (h4 | h4)
    · exact L.apart _ _ _ hs h4
    · have hv := (T.noValue _ _ _ hs).2.2.2
      have hl := h4.length_le
      simp only [List.length_append, List.length_cons, List.length_nil] at hl
      exact hv (h4.eq_of_length_le (by simp))
  · intro h k v hs
    rw [hS] at hs
    exact T.noValue _ _ _ hs
  · intro f hf
    rw [hT]
    rintro (h4 | h4)
    · exact T.noTable f hf h4
    · unfold IsValue at hf
      rcases hf with rfl | rfl | rfl | rfl | rfl | rfl | rfl <;> revert h4 <;> decide
  · intro f hf k
    rw [hT]
    rintro (h4 | h4)
    · exact T.flat f hf k h4
    · have hl := h4.length_le
      simp only [List.length_append, List.length_cons, List.length_nil] at hl
      unfold IsHow at hf
      rcases hf with rfl | rfl | rfl | rfl | rfl <;> simp at hl
  · constructor
    · exact (hS _ _ _).2 M.artifactPaths
    · exact (hS _ _ _).2 M.excludeArtifactPaths
    · exact (hS _ _ _).2 M.codePaths
    · exact (hS _ _ _).2 M.excludeCodePaths
    · have := M.codeUrl
      simp only [TextIs, hS] at this ⊢
      exact this
    · have := M.mdName
      simp only [NameIs, hS, hT2] at this ⊢
      exact this
    · have := M.mdAttrs
      simp only [AttrsAre, TextIs, hS, hT2] at this ⊢
      exact this
    · have := M.header
      simp only [TextIs, hS] at this ⊢
      exact this
    · exact .inr ⟨fun v hv => h1 _ _ ((hS _ _ _).1 hv), by simp only [hTe]⟩
    · have := M.family
      simp only [FamilyIs, hS, hT2] at this ⊢
      exact this
    · have := M.dot
      simp only [DotIs, hS, hT2] at this ⊢
      exact this
    · have := M.name
      simp only [NameIs, hS, hT2] at this ⊢
      exact this

/-! ## the smaller reader -/

/-- The entries of the smaller reader. -/
def ofEntries (es : TEntries) : Entries := es.map fun e => (e.1, ofNames e.2)

theorem ofEntries_entries {ys : List TLine} {es : TEntries} (h : TomlEntriesAre ys es) : EntriesAre (ys.map ofLine) (ofEntries es) := by
  induction h with
  | nil => exact .nil
  | skip _ ih => exact .skip ih
  | pair _ ih => exact .pair ih

theorem ofEntries_tables {ys : List TLine} {ts : List (List Str × TEntries)} (h : TomlTablesAre ys ts) : TablesAre (ys.map ofLine) (ts.map fun t => (t.1, ofEntries t.2)) := by
  induction h with
  | nil => exact .nil
  | table he _ ih =>
    rw [List.cons_append, List.map_cons, List.map_append, List.map_cons]
    exact .table (ofEntries_entries he) ih

theorem mem_ofEntries {es : TEntries} {k : Str} {v : Val} : (k, v) ∈ ofEntries es ↔ ∃ u, (k, u) ∈ es ∧ ofNames u = v := by
  unfold ofEntries
  rw [List.mem_map]
  constructor
  · rintro ⟨⟨k1, u⟩, h1, h2⟩
    cases h2
    exact ⟨u, h1, rfl⟩
  · rintro ⟨u, h1, rfl⟩
    exact ⟨(k, u), h1, rfl⟩

theorem ofNames_text {u : NamesDoc} {s : Str} : ofNames u = .text s ↔ u = .str s := by
  cases u <;> simp [ofNames]

theorem ofNames_list {u : NamesDoc} {s : List Str} : ofNames u = .list s ↔ u = .seq s := by
  cases u <;> simp [ofNames]

/-- C77: every text that the reader of C68 understands has the same meaning here, with the settings for exports that are used when nothing is said. -/
theorem C77_extends {s : Str} {raw : SettingsRaw} (h : TomlSettingsText s raw) : ConfIs s raw WireExport.default := by
  obtain ⟨root, ts, ⟨ls, ys, a, b, h0, hn, rfl, h1, rfl, ha, hb⟩, nr, nt, hroot, hts, f1, f2, f3, f4, f5, f6, f7⟩ := h
  have hd : DocIs (joinLines ls) (([], ofEntries root) :: ts.map fun t => (t.1, ofEntries t.2)) := by
    refine ⟨ls, (a ++ b).map ofLine, a.map ofLine, b.map ofLine, _, _, h0, hn, rfl, ?_, List.map_append .., ofEntries_entries ha, ofEntries_tables hb, rfl⟩
    clear ha hb h0 hn
    generalize a ++ b = ys at h1
    induction h1 with
    | nil => exact .nil
    | cons h _ ih => exact .cons (.names h) ih
  have hH : ∀ t ∈ ts, t.1 ≠ [] ∧ t.1.length = 2 ∧ t.1 ≠ [c!"export"] ∧ t.1.head? ≠ some c!"export" := by
    intro t ht
    rcases hts t ht with e | e <;> rw [e] <;> decide
  generalize hd' : (([], ofEntries root) :: ts.map fun t => (t.1, ofEntries t.2) : Doc) = d at hd
  have hS0 : ∀ k v, Says d [] k v ↔ (k, v) ∈ ofEntries root := by
    intro k v
    rw [← hd']
    constructor
    · rintro ⟨es, h1, h2⟩
      rcases List.mem_cons.1 h1 with h1 | h1
      · cases h1; exact h2
      · obtain ⟨t, ht, e⟩ := List.mem_map.1 h1
        exact absurd (Prod.mk.inj e).1 (hH t ht).1
    · intro h
      exact ⟨_, by simp, h⟩
  have hS1 : ∀ h k v, h ≠ [] → (Says d h k v ↔ ∃ es, (h, es) ∈ ts ∧ (k, v) ∈ ofEntries es) := by
    intro h k v hne
    rw [← hd']
    constructor
    · rintro ⟨es, h1, h2⟩
      rcases List.mem_cons.1 h1 with h1 | h1
      · exact absurd (Prod.mk.inj h1).1 hne
      · obtain ⟨t, ht, e⟩ := List.mem_map.1 h1
        cases e
        exact ⟨t.2, ht, h2⟩
    · rintro ⟨es, h1, h2⟩
      exact ⟨_, List.mem_cons_of_mem _ (List.mem_map.2 ⟨_, h1, rfl⟩), h2⟩
  have hT : ∀ h, There d h → h = [] ∨ ∃ t ∈ ts, h <+: t.1 := by
    rintro h ⟨t, ht, hp⟩
    rw [← hd'] at ht
    rcases List.mem_cons.1 ht with rfl | ht
    · exact .inl (List.prefix_nil.1 hp)
    · obtain ⟨t', ht', rfl⟩ := List.mem_map.1 ht
      exact .inr ⟨t', ht', hp⟩
  have hT2 : ∀ x y, There d [x, y] → ∃ es, ([x, y], es) ∈ ts := by
    intro x y h
    rcases hT _ h with h | ⟨t, ht, hp⟩
    · cases h
    · have e := hp.eq_of_length (hH t ht).2.1.symm
      exact ⟨t.2, by rw [e]; exact ht⟩
  have hTe : ¬ There d [c!"export"] := by
    intro h
    rcases hT _ h with h | ⟨t, ht, r, hp⟩
    · cases h
    · refine (hH t ht).2.2.2 ?_
      rw [← hp]
      rfl
  have hkeys : ∀ t ∈ ts, (t.2.map (·.1)).Nodup := by
    intro t ht
    have hu : ∀ {es}, (t.1, es) ∈ ts → es = t.2 := by
      intro es h
      have a := (lookup_iff nt).2 h
      rw [(lookup_iff nt).2 (show (t.1, t.2) ∈ ts from ht)] at a
      cases a
      rfl
    rcases hts t ht with e | e
    · rcases f6 with ⟨es, h1, h2⟩ | ⟨h1, -⟩
      · rw [← e] at h1
        rw [← hu h1]
        exact h2.1
      · exact absurd (show (_, t.2) ∈ ts by rw [← e]; exact ht) (h1 t.2)
    · rcases f7 with ⟨es, h1, h2⟩ | ⟨h1, -⟩
      · rw [← e] at h1
        rw [← hu h1]
        exact h2.1
      · exact absurd (show (_, t.2) ∈ ts by rw [← e]; exact ht) (h1 t.2)
  have hfst : ∀ es : TEntries, (ofEntries es).map (·.1) = es.map (·.1) := by
    intro es
    unfold ofEntries
    rw [List.map_map]
    rfl
  have hval : ∀ h k v, Says d h k v → (h = [] ∧ k ∉ [c!"parse", c!"format", c!"export"]) ∨ h.length = 2 := by
    intro h k v hs
    by_cases hne : h = []
    · subst hne
      obtain ⟨u, hu, -⟩ := mem_ofEntries.1 ((hS0 k v).1 hs)
      exact .inl ⟨rfl, hroot _ hu⟩
    · obtain ⟨es, he, -⟩ := (hS1 h k v hne).1 hs
      exact .inr (hH _ he).2.1
  refine ⟨d, hd, ⟨?_, ?_, ?_⟩, ⟨?_, ?_, ?_⟩, ?_⟩
  · rw [← hd', List.map_cons, List.map_map, List.nodup_cons]
    refine ⟨?_, nt⟩
    rw [List.mem_map]
    rintro ⟨t, ht, e⟩
    exact (hH t ht).1 e
  · intro t ht
    rw [← hd'] at ht
    rcases List.mem_cons.1 ht with rfl | ht
    · rw [hfst]; exact nr
    · obtain ⟨t', ht', rfl⟩ := List.mem_map.1 ht
      rw [hfst]
      exact hkeys t' ht'
  · intro h k v hs ht
    rcases hT _ ht with h4 | ⟨t, h4, h5⟩
    · simp at h4
    · rcases hval h k v hs with ⟨rfl, hk⟩ | hl
      · obtain ⟨r, h5⟩ := h5
        rcases hts t h4 with e | e <;> rw [e] at h5 <;> cases h5 <;> simp at hk
      · have := h5.length_le
        rw [(hH t h4).2.1] at this
        simp at this
        omega
  · intro h k v hs
    rcases hval h k v hs with ⟨rfl, hk⟩ | hl
    · refine ⟨?_, ?_, ?_, ?_⟩
      · unfold IsHow; simp
      all_goals
        intro e
        cases e
        simp at hk
    · have hl : (h ++ [k]).length = 3 := by simp [hl]
      refine ⟨?_, ?_, ?_, ?_⟩
      · unfold IsHow
        rintro (e | e | e | e | e) <;> rw [e] at hl <;> simp at hl
      all_goals
        intro e
        rw [e] at hl
        simp at hl
  · intro f hf ht
    rcases hT _ ht with rfl | ⟨t, h4, h5⟩
    · revert hf; unfold IsValue; simp
    · unfold IsValue at hf
      rcases hts t h4 with e | e <;> rw [e] at h5 <;> rcases hf with rfl | rfl | rfl | rfl | rfl | rfl | rfl <;> revert h5 <;> decide
  · intro f hf k ht
    rcases hT _ ht with h4 | ⟨t, h4, h5⟩
    · simp at h4
    · have hl := h5.length_le
      rw [(hH t h4).2.1] at hl
      unfold IsHow at hf
      rcases hf with rfl | rfl | rfl | rfl | rfl <;> simp at hl
  · have seq : ∀ {k l}, (k, NamesDoc.seq l) ∈ root → Says d [] k (.list l) := fun {k l} h => (hS0 _ _).2 (mem_ofEntries.2 ⟨_, h, rfl⟩)
    have noE : ∀ h k v, h.head? = some c!"export" → ¬ Says d h k v := by
      intro h k v hh hs
      obtain ⟨es, h1, -⟩ := (hS1 h k v (by rintro rfl; cases hh)).1 hs
      exact (hH _ h1).2.2.2 hh
    have noT : ∀ x, ¬ There d [c!"export", x] := fun x h => hTe (there_short ⟨[x], rfl⟩ h)
    constructor
    · exact seq f1
    · exact seq f2
    · exact seq f3
    · exact seq f4
    · rcases f5 with ⟨u, h1, h2⟩ | ⟨h1, h2⟩
      · exact .inl ⟨u, (hS0 _ _).2 (mem_ofEntries.2 ⟨_, h1, rfl⟩), h2⟩
      · refine .inr ⟨fun v hv => ?_, h2⟩
        obtain ⟨u, hu, -⟩ := mem_ofEntries.1 ((hS0 _ _).1 hv)
        exact h1 u hu
    · rcases f6 with ⟨es, h1, -, ⟨h2, h3⟩ | ⟨v, h2, h3, h4⟩⟩ | ⟨h1, h2⟩
      · exact .inr (.inl ⟨(hS1 _ _ _ (by simp)).2 ⟨es, h1, mem_ofEntries.2 ⟨_, h2, rfl⟩⟩, h3⟩)
      · exact .inr (.inr ⟨v, (hS1 _ _ _ (by simp)).2 ⟨es, h1, mem_ofEntries.2 ⟨_, h2, rfl⟩⟩, (hS1 _ _ _ (by simp)).2 ⟨es, h1, mem_ofEntries.2 ⟨_, h3, rfl⟩⟩, h4⟩)
      · refine .inl ⟨fun h => ?_, h2⟩
        obtain ⟨es, he⟩ := hT2 _ _ h
        exact h1 es he
    · rcases f7 with ⟨es, h1, nes, ⟨h2, h3⟩ | ⟨p, h2, h3, h4⟩⟩ | ⟨h1, h2⟩
      · exact .inr (.inl ⟨(hS1 _ _ _ (by simp)).2 ⟨es, h1, mem_ofEntries.2 ⟨_, h2, rfl⟩⟩, h3⟩)
      · refine .inr (.inr ⟨p, (hS1 _ _ _ (by simp)).2 ⟨es, h1, mem_ofEntries.2 ⟨_, h2, rfl⟩⟩, ?_, h4⟩)
        rcases h3 with ⟨u, h5, h6⟩ | ⟨h5, h6⟩
        · exact .inl ⟨u, (hS1 _ _ _ (by simp)).2 ⟨es, h1, mem_ofEntries.2 ⟨_, h5, rfl⟩⟩, h6⟩
        · refine .inr ⟨fun v hv => ?_, h6⟩
          obtain ⟨es', h7, h8⟩ := (hS1 _ _ _ (by simp)).1 hv
          have a := (lookup_iff nt).2 h1
          rw [(lookup_iff nt).2 h7] at a
          cases a
          obtain ⟨u, hu, -⟩ := mem_ofEntries.1 h8
          exact h5 u hu
      · refine .inl ⟨fun h => ?_, h2⟩
        obtain ⟨es, he⟩ := hT2 _ _ h
        exact h1 es he
    · exact .inr ⟨fun v => noE _ _ _ rfl, rfl⟩
    · refine .inr ⟨fun v => noE _ _ _ rfl, ?_⟩
      simp only [hTe, WireExport.default, iff_false]
      decide
    · exact .inl ⟨noT _, rfl⟩
    · exact .inl ⟨noT _, rfl⟩
    · exact .inl ⟨noT _, rfl⟩

/-- C77: a new project has no table of contents, though the setting is on when it is not given (artifact-ser/src/lib.rs L94). -/
theorem C77_init : ConfIs initSettings newSettings WireExport.default ∧ ConfIs (initSettings ++ c!"\n[export]") newSettings { WireExport.default with toc := true } :=
  ⟨C77_extends initSettings_text, (C77_reads _ _ _).1 (by decide +kernel)⟩

/-! ## exports -/

/-- C77: when `art export md` succeeds, the settings file of the project says what the document is made of: the header, whether there is a table of contents, and how names, families and graphs are written. -/
theorem C77_export {L : Libs} {F : ExportLibs} {html : Project → FS → Nat → FS → Prop} {hash : ArtifactIm → HashIm} {ncpu : Nat} {fs : FS} {dir : FilePath} {cmd : ExportCmd} {fs' : FS}
    (hx : ConfExports L F html hash ncpu fs dir cmd 0 fs') (ht : lower cmd.ty ≠ c!"html") :
    ∃ repo s d raw ex c p text, findRepo fs dir = some repo ∧ IMap.get? fs (repo ++ c!"/.art/settings.toml") = some (.file (.text s)) ∧ DocIs s d ∧ Legal d ∧ Typed d ∧ Means d raw ex ∧
      ReadsProject L (fun s => (confSettings s).map (·.1)) hash ncpu fs repo (.ok (c, p)) ∧ p.settings.codeUrl = raw.codeUrl ∧ IMap.get? fs' cmd.dest = some (.file (.text text)) ∧
      ∃ pre md head contents sections, md = (⟨p, raw.codeUrl, ex.family, ex.dot, pre⟩ : SerMd) ∧ text = head ++ contents ++ sections.flatten ∧
        (NameIs d [c!"export", c!"md_name"] (.pre pre) ∨ (NameIs d [c!"export", c!"md_name"] .default ∧ pre = [])) ∧
        ((∃ t, Says d [c!"export"] c!"md_header" (.text t) ∧ head = t ++ c!"\n") ∨ ((∀ v, ¬ Says d [c!"export"] c!"md_header" v) ∧ head = [])) ∧
        ((There d [c!"export"] ∧ ¬ Says d [c!"export"] c!"md_toc" (.flag false) → ContentsShown md contents) ∧
          (¬ (There d [c!"export"] ∧ ¬ Says d [c!"export"] c!"md_toc" (.flag false)) → contents = [])) ∧
        List.Forall₂ (SectionShown F md) (arts p) sections := by
  obtain ⟨-, repo, c, p, text, hr, hp, hg, contents, sections, h1, h2, h3⟩ := C55_exported hx ht
  obtain ⟨raw, path, st, r, as, lt, l1, l2, -, -, -, -, rfl, -⟩ := reads_parts hp
  unfold loadSettingsRaw at l1
  split at l1
  · dsimp only at l1
    split at l1
    · rename_i s hs
      obtain ⟨raw', l1, e⟩ := Option.map_eq_some_iff.1 l1
      cases e
      obtain ⟨⟨raw', ex⟩, l3, e⟩ := Option.map_eq_some_iff.1 l1
      dsimp only at e
      subst e
      have hex : exportAt fs dir = ex := by
        unfold exportAt
        simp only [hr, hs, l3]
      have hc := (C77_reads _ _ _).1 l3
      obtain ⟨d, hd, hL, hT, M⟩ := id hc
      have hurl : st.codeUrl = raw'.codeUrl := by
        unfold resolveSettings at l2
        simp only [Res.bind_eq_ok] at l2
        obtain ⟨_, _, _, _, _, _, _, _, h5⟩ := l2
        cases h5
        rfl
      rw [hex] at h1 h2 h3
      have htoc := C77_toc hc hd
      refine ⟨repo, s, d, raw', ex, c, _, text, hr, hs, hd, hL, hT, M, hp, hurl, hg, (usedExport ex).namePrefix, exporter (usedExport ex) _, _, contents, sections, ?_, h3, ?_, ?_, ?_, h2⟩
      · unfold exporter usedExport
        rw [← hurl]
        rfl
      · have := M.name
        unfold usedExport
        cases e : ex.name with
        | default => rw [e] at this; exact .inr ⟨this, rfl⟩
        | pre v => rw [e] at this; exact .inl this
      · rcases M.header with ⟨t, h4, h5⟩ | ⟨h4, h5⟩
        · refine .inl ⟨t, h4, ?_⟩
          show (ex.header.map _).getD _ = _
          rw [h5]
          rfl
        · refine .inr ⟨h4, ?_⟩
          show (ex.header.map _).getD _ = _
          rw [h5]
          rfl
      · rw [← htoc]
        change (if ex.toc = true then _ else _) at h1
        constructor
        · intro h
          rw [if_pos h] at h1
          exact h1
        · intro h
          rw [if_neg h] at h1
          exact h1
    · cases l1
  · cases l1

end Art.Conf
