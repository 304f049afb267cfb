import Verif.Props.Config

/-!
# Cases for property C77
-/

namespace Art.Conf
open Art.Spec Art.Spec.Export

/-- The lines of a settings file before its tables. -/
def confTop : List Str := [c!"artifact_paths = [\"design\"]", c!"exclude_artifact_paths = []", c!"code_paths = ['src']", c!"exclude_code_paths = []", c!"code_url = \"http://x/\""]

/-- Its tables. -/
def confTables : List Str := [c!"[export] # for the page", c!"md_header = \"My project\"", c!"", c!"[export.md_name]", c!"type = \"prefix\"", c!"value = \"#\"", c!"[ other . 'things' ]", c!"on = true"]

/-- What it says. -/
theorem conf_says : ConfIs (joinLines (confTop ++ confTables)) (exUrlRaw (some c!"http://x/")) ⟨some c!"My project", true, .list, .ignore, .pre c!"#"⟩ :=
  (C77_reads _ _ _).1 (by decide +kernel)

/-- `C77_reads`: truth values, all ways to write graphs, and texts that say nothing: an unknown word, a text for a truth value, a table twice, a key twice, a table for a value, a value for a table, a missing field. -/
example : ((confSettings (joinLines (confTop ++ [c!"[export]", c!"md_toc = false # no", c!"[export.md_dot]", c!"pre=\"<\"", c!"post='>'", c!"type='replace_braces'"]))).map (·.2)) =
      some ⟨none, false, .list, .replaceBraces c!"<" c!">", .default⟩ ∧
    (∀ t ∈ ([[c!"[export]", c!"md_toc = yes"], [c!"[export]", c!"md_toc = \"true\""], [c!"[export]", c!"[export]"], [c!"[export]", c!"md_toc = true", c!"md_toc = true"], [c!"[code_url]"],
        [c!"export = true"], [c!"[export.md_family]"], [c!"[export.md_dot]", c!"type = \"replace_braces\"", c!"pre = \"\""]] : List (List Str)),
      confSettings (joinLines (confTop ++ t)) = none) ∧ confSettings (joinLines confTop.tail) = none := by decide +kernel

/-- `C77_unambiguous`. -/
example {raw : SettingsRaw} {ex : WireExport} (h : ConfIs (joinLines (confTop ++ confTables)) raw ex) : ex.toc = true := by
  obtain ⟨-, rfl⟩ := C77_unambiguous h conf_says
  rfl

/-- `C77_toc`: with and without the table. -/
example : ∃ d, DocIs (joinLines (confTop ++ confTables)) d ∧ There d [c!"export"] ∧ ¬ Says d [c!"export"] c!"md_toc" (.flag false) := by
  obtain ⟨d, hd, -⟩ := id conf_says
  exact ⟨d, hd, (C77_toc conf_says hd).1 rfl⟩

/-- `C77_toc_on`: the settings of a new project. -/
example : ∃ d, DocIs initSettings d ∧ ¬ There d [c!"export"] := by
  obtain ⟨d, hd, hl, ht, M⟩ := C77_init.1
  have e : (confText initSettings).map (fun d => d.any fun t => [c!"export"].isPrefixOf t.1) = some false := by decide +kernel
  rw [(confText_iff _ _).2 hd] at e
  refine ⟨d, hd, fun h => ?_⟩
  rw [Option.map_some, (there_any hl).2 h] at e
  cases e

/-- `C77_misspelt`: the line `md_tco = false` in the table for exports; the table of contents stays. -/
theorem conf_misspelt : ConfIs (joinLines (confTop ++ [c!"[export] # for the page"] ++ c!"md_tco = false" :: confTables.tail)) (exUrlRaw (some c!"http://x/"))
    ⟨some c!"My project", true, .list, .ignore, .pre c!"#"⟩ := by
  obtain ⟨d, hd, hl, -⟩ := id conf_says
  refine C77_misspelt (h := [c!"export"]) (k := c!"md_tco") (v := .flag false) (d := d) (by simp) (by decide +kernel) ((confLine_iff _ _).1 (by decide +kernel))
    (.inr ⟨confTop, c!"[export] # for the page", [], rfl, (confLine_iff _ _).1 (by decide +kernel), by simp⟩) hd ?_ ?_ ?_ conf_says
  · have e1 : (confText (joinLines (confTop ++ confTables))).map (fun d => (valueOf d [c!"export"] c!"md_tco", d.any fun t => [c!"export", c!"md_tco"].isPrefixOf t.1)) = some (none, false) := by decide +kernel
    rw [(confText_iff _ _).2 hd] at e1
    simp only [Option.map_some, Option.some.injEq, Prod.mk.injEq] at e1
    refine ⟨(valueOf_none hl _ _).1 e1.1, ?_⟩
    rintro ⟨t, ht, hp⟩
    have := List.any_eq_false.1 e1.2 t ht
    rw [List.isPrefixOf_iff_prefix] at this
    exact this hp
  · unfold Known IsValue IsHow
    decide
  · unfold IsHow
    decide

/-- `C77_ignored`: the same file with and without the table that is not known. -/
example : ∃ d d', DocIs (joinLines (confTop ++ confTables)) d ∧ DocIs (joinLines (confTop ++ confTables.take 6)) d' ∧ Legal d ∧ Legal d' ∧ Typed d ∧ Typed d' ∧ Agree d d' ∧ d ≠ d' := by
  obtain ⟨d, hd, hl, ht, -⟩ := id conf_says
  have hc' : ConfIs (joinLines (confTop ++ confTables.take 6)) (exUrlRaw (some c!"http://x/")) ⟨some c!"My project", true, .list, .ignore, .pre c!"#"⟩ := (C77_reads _ _ _).1 (by decide +kernel)
  obtain ⟨d', hd', hl', ht', -⟩ := hc'
  have e : confText (joinLines (confTop ++ confTables)) = (confText (joinLines (confTop ++ confTables.take 6))).map (· ++ [([c!"other", c!"things"], [(c!"on", .flag true)])]) := by decide +kernel
  rw [(confText_iff _ _).2 hd, (confText_iff _ _).2 hd', Option.map_some, Option.some.injEq] at e
  subst e
  refine ⟨_, _, hd, hd', hl, hl', ht, ht', ⟨?_, ?_, ?_⟩, ?_⟩
  · intro h k v hk
    constructor
    · rintro ⟨es, h1, h2⟩
      rcases List.mem_append.1 h1 with h1 | h1
      · exact ⟨es, h1, h2⟩
      · cases List.mem_singleton.1 h1
        exfalso
        cases List.mem_singleton.1 h2
        revert hk
        unfold Known IsValue IsHow
        decide
    · rintro ⟨es, h1, h2⟩
      exact ⟨es, List.mem_append_left _ h1, h2⟩
  · intro f hf
    constructor
    · rintro ⟨t, h1, h2⟩
      rcases List.mem_append.1 h1 with h1 | h1
      · exact ⟨t, h1, h2⟩
      · exfalso
        cases List.mem_singleton.1 h1
        unfold IsHow at hf
        rcases hf with rfl | rfl | rfl | rfl | rfl <;> revert h2 <;> decide
    · rintro ⟨t, h1, h2⟩
      exact ⟨t, List.mem_append_left _ h1, h2⟩
  · constructor
    · rintro ⟨t, h1, h2⟩
      rcases List.mem_append.1 h1 with h1 | h1
      · exact ⟨t, h1, h2⟩
      · exfalso
        cases List.mem_singleton.1 h1
        revert h2
        decide
    · rintro ⟨t, h1, h2⟩
      exact ⟨t, List.mem_append_left _ h1, h2⟩
  · simp

/-- `C77_extends`. -/
example : TomlSettingsText (joinLines (confTop ++ [c!"[parse.md_name]", c!"type = \"default\""])) (exUrlRaw (some c!"http://x/")) := (C68_settings _ _).1 (by decide +kernel)

/-- The project of C55 with this settings file. -/
def confFs : FS := IMap.insert exDocFs c!"/p/.art/settings.toml" (.file (.text (joinLines (confTop ++ confTables))))

/-- `C77_export`: the export of this project works. -/
example (html : Project → FS → Nat → FS → Prop) : ∃ fs', ConfExports urlLibs exF html exId 4 confFs c!"/p/src" ⟨c!"md", c!"/p/doc.md"⟩ 0 fs' := by
  have f : (walkCode confFs exS).countP (fun f => (codeSent urlLibs confFs f).dead) < 4 ∧
    (walkArtifacts confFs exS).countP (fun f => (artSent urlLibs exS.pre confFs f).dead) < 4 := by decide +kernel
  have hs : SettingsOf (fun s => (confSettings s).map (·.1)) confFs c!"/p" (exUrlS (some c!"http://x/")) := by
    refine ⟨exS.settingsPath, exUrlRaw (some c!"http://x/"), ?_, rfl⟩
    have h1 : IMap.get? confFs c!"/p" = some .dir := by decide +kernel
    have h2 : IMap.get? confFs (c!"/p" ++ c!"/.art/settings.toml") = some (.file (.text (joinLines (confTop ++ confTables)))) := by decide +kernel
    unfold loadSettingsRaw
    simp only [h1, h2, (C77_reads _ _ _).2 conf_says]
    rfl
  have hr := readNow_reads (hash := exId) hs f.1 f.2
  have hx : exportAt confFs c!"/p/src" = ⟨some c!"My project", true, .list, .ignore, .pre c!"#"⟩ := by decide +kernel
  have e : (readNow urlLibs exId confFs (exUrlS (some c!"http://x/"))).toOption.map (fun r => (exportMarkdown exF (usedExport ⟨some c!"My project", true, .list, .ignore, .pre c!"#"⟩) confFs c!"/p/doc.md" r.2).1) = some 0 := by
    decide +kernel
  have hfind : findRepo confFs c!"/p/src" = some c!"/p" := by decide +kernel
  generalize readNow urlLibs exId confFs (exUrlS (some c!"http://x/")) = o at hr e
  cases o with
  | ok r =>
    simp only [Res.toOption, Option.map_some, Option.some.injEq] at e
    refine ⟨(exportMarkdown exF (usedExport ⟨some c!"My project", true, .list, .ignore, .pre c!"#"⟩) confFs c!"/p/doc.md" r.2).2, ?_⟩
    unfold ConfExports Exports
    rw [hx, hfind]
    refine ⟨_, hr, ?_⟩
    show if lower c!"md" = c!"html" then _ else if lower c!"md" = c!"md" then _ else _
    rw [if_neg (by decide), if_pos (by decide), ← e]
  | err => cases e
  | panic => cases e

end Art.Conf
