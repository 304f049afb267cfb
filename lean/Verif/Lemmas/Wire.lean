import Verif.Lemmas.WireTree
import Verif.Lemmas.Export

/-! Lemmas for C63: what is written is read. -/

namespace Art
open Spec

section
variable {keep : Bool} {w : Json}

theorem deStr_same {s : Str} (h : Alike keep (.str s) w) : deStr w = .ok s := by
  rw [Alike] at h; rw [h]; rfl

theorem deBool_same {b : Bool} (h : Alike keep (.bool b) w) : deBool w = .ok b := by
  rw [Alike] at h; rw [h]; rfl

theorem showNat_all (n : Nat) : (showNat n).all isDig = true := by
  rw [List.all_eq_true]
  intro c hc
  exact showNat_digit hc

theorem deU64_same {n : Nat} (h : Alike keep (.ofNat n) w) (hn : LineNum n) : deU64 w = .ok n := by
  unfold Json.ofNat at h
  rw [Alike] at h
  rw [h]
  unfold deU64
  simp only []
  rw [if_pos ⟨showNat_all n, by rw [decVal_showNat]; exact hn⟩, decVal_showNat]

theorem deF32_same {wr : ℚ → Str} {read : Str → Option ℚ} {q : ℚ} (hq : NumberBack wr read q) (h : Alike keep (.num (wr q)) w) : deF32 read w = .ok q := by
  rw [Alike] at h
  rw [h]
  simp [deF32, hq.2, needed]

theorem optField_same {α : Type} {f : Json → Res Unit α} {v : Json} {a : α} (hv : v ≠ .null) (h : f v = .ok a) : optField f (some v) = .ok (some a) := by
  cases v <;> first | exact absurd rfl hv | simp [optField, h]

theorem deName_same {n : Name} (h : Alike keep n.toJson w) : deName w = .ok n := by
  unfold deName
  rw [deStr_same h]
  exact Whole.wireName_raw n

theorem wireSub_raw {s : SubName} (h : SubName.fromStr s.raw = .ok s) : wireSub s.raw = .ok s := by
  unfold wireSub; rw [h]

theorem deSub_same {s : SubName} (hs : SubName.fromStr s.raw = .ok s) (h : Alike keep s.toJson w) : deSub w = .ok s := by
  unfold deSub
  rw [deStr_same h]
  exact wireSub_raw hs

theorem deHash_same (strict : Bool) {i : HashIm} (h : Alike keep i.toJson w) : deHash strict w = .ok i := by
  unfold deHash
  rw [deStr_same h]
  exact C31_roundtrip strict i

theorem deCodeLoc_same {c : CodeLoc} (hc : LineNum c.line) (h : Alike keep c.toJson w) : deCodeLoc w = .ok c := by
  obtain ⟨fs, e, hf⟩ := same_fields h (names := [c!"file", c!"line"]) rfl
  rcases hf with _ | ⟨⟨v1, rfl, h1⟩, _ | ⟨⟨v2, rfl, h2⟩, _ | _⟩⟩
  simp [deCodeLoc, deFields, e, needed, reqField, deStr_same h1, deU64_same h2 hc]

theorem alike_obj_not_null {l : List (Str × Json)} (h : Alike keep (.obj l) w) : w ≠ .null := by
  rw [Alike] at h
  obtain ⟨_, _, rfl, _⟩ := h
  exact nofun

theorem optLoc_same {o : Option CodeLoc} (ho : ∀ l, o = some l → LineNum l.line) (h : Alike keep (.ofOption CodeLoc.toJson o) w) : optField deCodeLoc (some w) = .ok o := by
  cases o with
  | none => rw [Json.ofOption, Alike] at h; rw [h]; rfl
  | some c => exact optField_same (alike_obj_not_null h) (deCodeLoc_same (ho c rfl) h)

theorem optStr_same {o : Option Str} (h : Alike keep (.ofOption .str o) w) : optField deStr (some w) = .ok o := by
  cases o with
  | none => rw [Json.ofOption, Alike] at h; rw [h]; rfl
  | some c =>
    have := deStr_same h
    rw [Json.ofOption, Alike] at h
    exact optField_same (by rw [h]; exact nofun) this

/-- Equal, up to order if the order is not kept. -/
def SameCodeIf (keep : Bool) (c d : ImplCode) : Prop := c.primary = d.primary ∧ PermIf keep c.secondary d.secondary

/-- Equal, up to order if the order is not kept. -/
def SameImplIf (keep : Bool) : Impl → Impl → Prop
  | .done s, y => y = .done s
  | .code c, y => ∃ d, y = .code d ∧ SameCodeIf keep c d
  | .notImpl, y => y = .notImpl

/-- Equal, up to order if the order is not kept. -/
def SameArtIf (keep : Bool) (a b : Artifact) : Prop :=
  a.id = b.id ∧ a.name = b.name ∧ a.file = b.file ∧ a.partof = b.partof ∧ a.parts = b.parts ∧ a.completed = b.completed ∧ a.text = b.text ∧ SameImplIf keep a.impl b.impl ∧
    a.subnames = b.subnames

/-- Equal, up to order if the order is not kept. -/
def SameProjectIf (keep : Bool) (p q : Project) : Prop :=
  p.settings = q.settings ∧ ShuffledIf keep (fun x y => x.1 = y.1 ∧ SameCodeIf keep x.2 y.2) p.codeImpls q.codeImpls ∧
    ShuffledIf keep (fun x y => x.1 = y.1 ∧ SameArtIf keep x.2 y.2) p.artifacts q.artifacts

theorem SameCodeIf.eq {c d : ImplCode} (h : SameCodeIf true c d) : c = d := by
  obtain ⟨a, b⟩ := c; obtain ⟨a', b'⟩ := d
  obtain ⟨h1, h2⟩ := h
  have h2 : b = b' := h2
  simp only at h1
  rw [h1, h2]

theorem SameImplIf.eq {c d : Impl} (h : SameImplIf true c d) : c = d := by
  cases c with
  | done s => exact (show d = _ from h).symm
  | notImpl => exact (show d = _ from h).symm
  | code c => obtain ⟨e, rfl, h⟩ := h; rw [h.eq]

theorem SameArtIf.eq {a b : Artifact} (h : SameArtIf true a b) : a = b := by
  obtain ⟨⟩ := a; obtain ⟨⟩ := b
  obtain ⟨h1, h2, h3, h4, h5, h6, h7, h8, h9⟩ := h
  simp only at h1 h2 h3 h4 h5 h6 h7 h8 h9
  rw [h1, h2, h3, h4, h5, h6, h7, h8.eq, h9]

theorem shuffledIf_eq {α : Type} {R : α → α → Prop} {l m : List α} (hr : ∀ a b, R a b → a = b) (h : ShuffledIf true R l m) : l = m := by
  obtain ⟨k, h1, h2'⟩ := h
  have h2 : k = m := h2'
  clear h2'
  rw [← h2]
  clear h2 m
  induction h1 with
  | nil => rfl
  | cons a _ ih => rw [hr _ _ a, ih]

theorem SameProjectIf.eq {p q : Project} (h : SameProjectIf true p q) : p = q := by
  obtain ⟨⟩ := p; obtain ⟨⟩ := q
  obtain ⟨h1, h2, h3⟩ := h
  simp only at h1 h2 h3
  rw [h1, shuffledIf_eq (fun a b h => Prod.ext h.1 h.2.eq) h2, shuffledIf_eq (fun a b h => Prod.ext h.1 h.2.eq) h3]

theorem sameImpl_of {c d : Impl} (h : SameImplIf false c d) : SameImpl c d := by
  cases c <;> exact h

theorem sameProject_of {p q : Project} (h : SameProjectIf false p q) : SameProject p q := by
  obtain ⟨h1, ⟨k, h2, h2'⟩, m, h3, h3'⟩ := h
  refine ⟨h1, ⟨k, h2, h2'⟩, m, h3.imp ?_, h3'⟩
  rintro a b ⟨e, i⟩
  obtain ⟨i1, i2, i3, i4, i5, i6, i7, i8, i9⟩ := i
  exact ⟨e, i1, i2, i3, i4, i5, i6, i7, sameImpl_of i8, i9⟩

theorem deImplCode_same {c : ImplCode} (hc : CodeSound c) (h : Alike keep c.toJson w) : ∃ d, deImplCode w = .ok d ∧ SameCodeIf keep c d := by
  obtain ⟨fs, e, hf⟩ := same_fields h (names := [c!"primary", c!"secondary"]) rfl
  rcases hf with _ | ⟨⟨v1, rfl, h1⟩, _ | ⟨⟨v2, rfl, h2⟩, _ | _⟩⟩
  obtain ⟨m, hm, k, hk, hp⟩ := deMap_same (k := wireSub) (f := deCodeLoc) (R := Eq) h2 hc.nodup (fun x hx => wireSub_raw (hc.subs x hx))
    (fun x hx v hv => ⟨x.2, deCodeLoc_same (hc.lines x hx) hv, rfl⟩)
  have : c.secondary = k := by
    refine shuffledIf_eq (R := fun x y => x.1 = y.1 ∧ x.2 = y.2) (fun a b h => Prod.ext h.1 h.2) ⟨k, hk, PermIf.refl _ _⟩
  subst this
  refine ⟨⟨c.primary, m⟩, ?_, rfl, hp⟩
  simp [deImplCode, deFields, e, needed, reqField, optLoc_same hc.primary h1, hm]

theorem deImpl_same {i : Impl} (hi : ∀ c, i = .code c → CodeSound c) (h : Alike keep i.toJson w) : ∃ j, deImpl w = .ok j ∧ SameImplIf keep i j := by
  cases i with
  | done s =>
    obtain ⟨fs, e, hf⟩ := same_fields h (names := [c!"type", c!"value"]) rfl
    rcases hf with _ | ⟨⟨v1, rfl, h1⟩, _ | ⟨⟨v2, rfl, h2⟩, _ | _⟩⟩
    rw [Alike] at h1
    subst h1
    exact ⟨.done s, by simp [deImpl, deFields, e, needed, reqField, deVariant, deStr_same h2], rfl⟩
  | notImpl =>
    obtain ⟨fs, e, hf⟩ := same_fields h (names := [c!"type", c!"value"]) rfl
    rcases hf with _ | ⟨⟨v1, rfl, h1⟩, _ | ⟨h2, _ | _⟩⟩
    rw [Alike] at h1
    subst h1
    cases h2
    exact ⟨.notImpl, by simp [deImpl, deFields, e, needed, reqField, deVariant], rfl⟩
  | code c =>
    obtain ⟨fs, e, hf⟩ := same_fields h (names := [c!"type", c!"value"]) rfl
    rcases hf with _ | ⟨⟨v1, rfl, h1⟩, _ | ⟨⟨v2, rfl, h2⟩, _ | _⟩⟩
    rw [Alike] at h1
    subst h1
    obtain ⟨d, hd, hs⟩ := deImplCode_same (hi c rfl) h2
    exact ⟨.code d, by simp [deImpl, deFields, e, needed, reqField, deVariant, hd], d, rfl, hs⟩

theorem deCompleted_same {wr : ℚ → Str} {read : Str → Option ℚ} {c : Completed} (h1 : NumberBack wr read c.spc) (h2 : NumberBack wr read c.tst)
    (h : Alike keep (c.toJson wr) w) : deCompleted read w = .ok c := by
  obtain ⟨fs, e, hf⟩ := same_fields h (names := [c!"spc", c!"tst"]) rfl
  rcases hf with _ | ⟨⟨v1, rfl, e1⟩, _ | ⟨⟨v2, rfl, e2⟩, _ | _⟩⟩
  simp [deCompleted, deFields, e, needed, reqField, deF32_same h1 e1, deF32_same h2 e2]

theorem deArtifact_same (strict : Bool) {wr : ℚ → Str} {read : Str → Option ℚ} {a : Artifact} (ha : ArtSound a) (hn : NumberBack wr read a.completed.spc)
    (hn' : NumberBack wr read a.completed.tst) (h : Alike keep (a.toJson wr) w) : ∃ b, deArtifact strict read w = .ok b ∧ SameArtIf keep a b := by
  obtain ⟨fs, e, hf⟩ := same_fields h (names := [c!"id", c!"name", c!"file", c!"partof", c!"parts", c!"completed", c!"text", c!"impl_", c!"subnames"]) rfl
  rcases hf with _ | ⟨⟨v1, rfl, h1⟩, _ | ⟨⟨v2, rfl, h2⟩, _ | ⟨⟨v3, rfl, h3⟩, _ | ⟨⟨v4, rfl, h4⟩, _ | ⟨⟨v5, rfl, h5⟩, _ | ⟨⟨v6, rfl, h6⟩, _ | ⟨⟨v7, rfl, h7⟩,
    _ | ⟨⟨v8, rfl, h8⟩, _ | ⟨⟨v9, rfl, h9⟩, _ | _⟩⟩⟩⟩⟩⟩⟩⟩⟩
  obtain ⟨i, hi, hs⟩ := deImpl_same ha.code h8
  refine ⟨⟨a.id, a.name, a.file, a.partof, a.parts, a.completed, a.text, i, a.subnames⟩, ?_, rfl, rfl, rfl, rfl, rfl, rfl, rfl, hs, rfl⟩
  simp [deArtifact, deFields, e, needed, reqField, deHash_same strict h1, deName_same h2, deStr_same h3, deSet_same h4 ha.partof (fun _ _ _ => deName_same),
    deSet_same h5 ha.parts (fun _ _ _ => deName_same), deCompleted_same hn hn' h6, deStr_same h7, hi, deSet_same h9 ha.subnames (fun s hs _ => deSub_same (ha.subs s hs))]

/-! ## settings -/

theorem PermIf.filter {α : Type} (f : α → Bool) {l m : List α} (h : PermIf keep l m) : PermIf keep (l.filter f) (m.filter f) := by
  cases keep
  · exact List.Perm.filter f h
  · have : l = m := h
    rw [this]; exact PermIf.refl _ _

theorem deTag_same {l : List (Str × Json)} {tag t : Str} (h : Alike keep (.obj l) w) (ht : oneField l tag = some (some (.str t))) :
    ∃ r, deTag tag w = .ok (t, r) ∧ Alike keep (.obj (l.filter fun e => e.1 ≠ tag)) r := by
  rw [Alike] at h
  obtain ⟨k, m, rfl, h, hp⟩ := h
  obtain ⟨o, ho, v, rfl, hv⟩ := same_oneField h hp ht
  rw [Alike] at hv
  subst hv
  refine ⟨.obj (m.filter fun e => e.1 ≠ tag), ?_, ?_⟩
  · simp [deTag, ho, needed, reqField, deStr, Json.toStr]
  · rw [Alike]
    refine ⟨k.filter fun e => e.1 ≠ tag, _, rfl, ?_, hp.filter _⟩
    rw [samem_iff] at h ⊢
    clear hp ht
    induction h with
    | nil => exact .nil
    | cons a _ ih =>
      rw [List.filter_cons, List.filter_cons, a.1]
      split
      · exact .cons a ih
      · exact ih

theorem deMdName_same {n : MdName} (h : Alike keep n.toJson w) : deMdName w = .ok n := by
  cases n with
  | default =>
    obtain ⟨r, h1, _⟩ := deTag_same (tag := c!"type") (t := c!"default") h rfl
    simp [deMdName, h1]
  | pre v =>
    obtain ⟨r, h1, h2⟩ := deTag_same (tag := c!"type") (t := c!"prefix") h rfl
    obtain ⟨fs, e, hf⟩ := same_fields h2 (names := [c!"value"]) rfl
    rcases hf with _ | ⟨⟨v1, rfl, e1⟩, _ | _⟩
    simp [deMdName, h1, deFields, e, needed, reqField, deStr_same e1]

theorem deMdAttrs_same {n : MdAttrs} (h : Alike keep n.toJson w) : deMdAttrs w = .ok n := by
  cases n with
  | hashes =>
    obtain ⟨r, h1, _⟩ := deTag_same (tag := c!"type") (t := c!"hashes") h rfl
    simp [deMdAttrs, h1]
  | code v =>
    obtain ⟨r, h1, h2⟩ := deTag_same (tag := c!"type") (t := c!"code") h rfl
    obtain ⟨fs, e, hf⟩ := same_fields h2 (names := [c!"prefix"]) rfl
    rcases hf with _ | ⟨⟨v1, rfl, e1⟩, _ | _⟩
    simp [deMdAttrs, h1, deFields, e, needed, optStr_same e1]

theorem deMdFamily_same {n : MdFamily} (h : Alike keep n.toJson w) : deMdFamily w = .ok n := by
  cases n with
  | list =>
    obtain ⟨r, h1, _⟩ := deTag_same (tag := c!"type") (t := c!"list") h rfl
    simp [deMdFamily, h1]
  | dot =>
    obtain ⟨r, h1, _⟩ := deTag_same (tag := c!"type") (t := c!"dot") h rfl
    simp [deMdFamily, h1]

theorem deMdDot_same {n : MdDot} (h : Alike keep n.toJson w) : deMdDot w = .ok n := by
  cases n with
  | ignore =>
    obtain ⟨r, h1, _⟩ := deTag_same (tag := c!"type") (t := c!"ignore") h rfl
    simp [deMdDot, h1]
  | removeBraces =>
    obtain ⟨r, h1, _⟩ := deTag_same (tag := c!"type") (t := c!"remove_braces") h rfl
    simp [deMdDot, h1]
  | replaceBraces a b =>
    obtain ⟨r, h1, h2⟩ := deTag_same (tag := c!"type") (t := c!"replace_braces") h rfl
    obtain ⟨fs, e, hf⟩ := same_fields h2 (names := [c!"pre", c!"post"]) rfl
    rcases hf with _ | ⟨⟨v1, rfl, e1⟩, _ | ⟨⟨v2, rfl, e2⟩, _ | _⟩⟩
    simp [deMdDot, h1, deFields, e, needed, reqField, deStr_same e1, deStr_same e2]

theorem deExport_same {n : WireExport} (h : Alike keep n.toJson w) : deExport w = .ok n := by
  obtain ⟨fs, e, hf⟩ := same_fields h (names := [c!"md_header", c!"md_toc", c!"md_family", c!"md_dot", c!"md_name"]) rfl
  rcases hf with _ | ⟨⟨v1, rfl, h1⟩, _ | ⟨⟨v2, rfl, h2⟩, _ | ⟨⟨v3, rfl, h3⟩, _ | ⟨⟨v4, rfl, h4⟩, _ | ⟨⟨v5, rfl, h5⟩, _ | _⟩⟩⟩⟩⟩
  simp [deExport, deFields, e, needed, optStr_same h1, defField, deBool_same h2, deMdFamily_same h3, deMdDot_same h4, deMdName_same h5]

theorem deOnly_same {α : Type} {name : Str} {d a : α} {f : Json → Res Unit α} {v : Json} (h : Alike keep (.obj [(name, v)]) w)
    (hd : ∀ v', Alike keep v v' → f v' = .ok a) : deOnly name d f w = .ok a := by
  obtain ⟨fs, e, hf⟩ := same_fields h (names := [name]) (fs := [some v]) (by simp [Json.fields, oneField])
  rcases hf with _ | ⟨⟨v1, rfl, h1⟩, _ | _⟩
  simp [deOnly, deFields, e, needed, defField, hd _ h1]

theorem deSettings_same {x : WireExport} {s : Settings} (hs : SettingsSound s) (h : Alike keep (s.toJson x) w) : deSettings w = .ok (x, s) := by
  obtain ⟨fs, e, hf⟩ := same_fields h (names := [c!"base", c!"settings_path", c!"code_paths", c!"exclude_code_paths", c!"artifact_paths", c!"exclude_artifact_paths",
    c!"code_url", c!"parse", c!"format", c!"export"]) rfl
  rcases hf with _ | ⟨⟨v1, rfl, h1⟩, _ | ⟨⟨v2, rfl, h2⟩, _ | ⟨⟨v3, rfl, h3⟩, _ | ⟨⟨v4, rfl, h4⟩, _ | ⟨⟨v5, rfl, h5⟩, _ | ⟨⟨v6, rfl, h6⟩, _ | ⟨⟨v7, rfl, h7⟩,
    _ | ⟨⟨v8, rfl, h8⟩, _ | ⟨⟨v9, rfl, h9⟩, _ | ⟨⟨v10, rfl, h10⟩, _ | _⟩⟩⟩⟩⟩⟩⟩⟩⟩⟩
  simp [deSettings, deFields, e, needed, reqField, deStr_same h1, deStr_same h2, deSet_same h3 hs.code (fun _ _ _ => deStr_same), deSet_same h4 hs.noCode (fun _ _ _ => deStr_same),
    deSet_same h5 hs.art (fun _ _ _ => deStr_same), deSet_same h6 hs.noArt (fun _ _ _ => deStr_same), optStr_same h7, defField,
    deOnly_same h8 (fun _ => deMdName_same), deOnly_same h9 (fun _ => deMdAttrs_same), deExport_same h10]

theorem deProject_same (strict : Bool) {wr : ℚ → Str} {read : Str → Option ℚ} {x : WireExport} {p : Project} (hp : ProjectSound p) (hr : RatiosBack wr read p)
    (h : Alike keep (p.toJson wr x) w) : ∃ q, deProject strict read w = .ok (x, q) ∧ SameProjectIf keep p q := by
  obtain ⟨fs, e, hf⟩ := same_fields h (names := [c!"settings", c!"code_impls", c!"artifacts"]) rfl
  rcases hf with _ | ⟨⟨v1, rfl, h1⟩, _ | ⟨⟨v2, rfl, h2⟩, _ | ⟨⟨v3, rfl, h3⟩, _ | _⟩⟩⟩
  obtain ⟨c, hc, hc'⟩ := deMap_same (k := wireName) (f := deImplCode) h2 hp.codes (fun x _ => Whole.wireName_raw x.1) (fun x hx v hv => deImplCode_same (hp.code x hx) hv)
  obtain ⟨a, ha, ha'⟩ := deMap_same (k := wireName) (f := deArtifact strict read) h3 hp.arts (fun x _ => Whole.wireName_raw x.1)
    (fun x hx v hv => deArtifact_same strict (hp.art x hx) (hr x hx).1 (hr x hx).2 hv)
  refine ⟨⟨p.settings, c, a⟩, ?_, rfl, hc', ha'⟩
  simp [deProject, deFields, e, needed, reqField, deSettings_same hp.settings h1, hc, ha]

/-! ## lints -/

theorem deLevel_same {l : Level} (h : Alike keep (.str l.wire) w) : deLevel w = .ok l := by
  rw [Alike] at h
  rw [h]
  cases l <;> rfl

theorem deCategory_same {l : Category} (h : Alike keep (.str l.wire) w) : deCategory w = .ok l := by
  rw [Alike] at h
  rw [h]
  cases l <;> rfl

theorem deLint_same {l : Lint} (hl : ∀ n, l.line = some n → LineNum n) (h : Alike keep l.toJson w) : deLint w = .ok l := by
  obtain ⟨level, path, line, category, msg⟩ := l
  cases path with
  | none =>
    cases line with
    | none =>
      obtain ⟨fs, e, hf⟩ := same_fields h (names := [c!"level", c!"path", c!"line", c!"category", c!"msg"]) rfl
      rcases hf with _ | ⟨⟨v1, rfl, h1⟩, _ | ⟨h2, _ | ⟨h3, _ | ⟨⟨v4, rfl, h4⟩, _ | ⟨⟨v5, rfl, h5⟩, _ | _⟩⟩⟩⟩⟩
      cases h2; cases h3
      simp [deLint, deFields, e, needed, reqField, optField, deLevel_same h1, deCategory_same h4, deStr_same h5]
    | some n =>
      obtain ⟨fs, e, hf⟩ := same_fields h (names := [c!"level", c!"path", c!"line", c!"category", c!"msg"]) rfl
      rcases hf with _ | ⟨⟨v1, rfl, h1⟩, _ | ⟨h2, _ | ⟨⟨v3, rfl, h3⟩, _ | ⟨⟨v4, rfl, h4⟩, _ | ⟨⟨v5, rfl, h5⟩, _ | _⟩⟩⟩⟩⟩
      cases h2
      have h3' := deU64_same h3 (hl n rfl)
      have : v3 ≠ .null := by unfold Json.ofNat at h3; rw [Alike] at h3; rw [h3]; exact nofun
      simp [deLint, deFields, e, needed, reqField, optField_same this h3', deLevel_same h1, deCategory_same h4, deStr_same h5]
      rfl
  | some p =>
    cases line with
    | none =>
      obtain ⟨fs, e, hf⟩ := same_fields h (names := [c!"level", c!"path", c!"line", c!"category", c!"msg"]) rfl
      rcases hf with _ | ⟨⟨v1, rfl, h1⟩, _ | ⟨⟨v2, rfl, h2⟩, _ | ⟨h3, _ | ⟨⟨v4, rfl, h4⟩, _ | ⟨⟨v5, rfl, h5⟩, _ | _⟩⟩⟩⟩⟩
      cases h3
      have h2' := optStr_same (o := some p) h2
      simp [deLint, deFields, e, needed, reqField, h2', deLevel_same h1, deCategory_same h4, deStr_same h5]
      rfl
    | some n =>
      obtain ⟨fs, e, hf⟩ := same_fields h (names := [c!"level", c!"path", c!"line", c!"category", c!"msg"]) rfl
      rcases hf with _ | ⟨⟨v1, rfl, h1⟩, _ | ⟨⟨v2, rfl, h2⟩, _ | ⟨⟨v3, rfl, h3⟩, _ | ⟨⟨v4, rfl, h4⟩, _ | ⟨⟨v5, rfl, h5⟩, _ | _⟩⟩⟩⟩⟩
      have h2' := optStr_same (o := some p) h2
      have h3' := deU64_same h3 (hl n rfl)
      have : v3 ≠ .null := by unfold Json.ofNat at h3; rw [Alike] at h3; rw [h3]; exact nofun
      simp [deLint, deFields, e, needed, reqField, h2', optField_same this h3', deLevel_same h1, deCategory_same h4, deStr_same h5]

theorem deCategorized_same {c : Categorized} (hc : LintsSound c) (h : Alike keep c.toJson w) : deCategorized w = .ok c := by
  obtain ⟨fs, e, hf⟩ := same_fields h (names := [c!"error", c!"other"]) rfl
  rcases hf with _ | ⟨⟨v1, rfl, h1⟩, _ | ⟨⟨v2, rfl, h2⟩, _ | _⟩⟩
  simp [deCategorized, deFields, e, needed, reqField, deList_same_eq h1 (fun l hl _ => deLint_same (hc l (by simp [hl]))),
    deList_same_eq h2 (fun l hl _ => deLint_same (hc l (by simp [hl])))]

theorem deResult_same (strict : Bool) {wr : ℚ → Str} {read : Str → Option ℚ} {x : WireExport} {r : ProjectResult} (hp : ProjectSound r.project)
    (hr : RatiosBack wr read r.project) (hl : LintsSound r.lints) (h : Alike keep (r.toJson wr x) w) :
    ∃ q, deResult strict read w = .ok (x, ⟨q, r.lints⟩) ∧ SameProjectIf keep r.project q := by
  obtain ⟨fs, e, hf⟩ := same_fields h (names := [c!"project", c!"lints"]) rfl
  rcases hf with _ | ⟨⟨v1, rfl, h1⟩, _ | ⟨⟨v2, rfl, h2⟩, _ | _⟩⟩
  obtain ⟨q, hq, hs⟩ := deProject_same strict hp hr h1
  exact ⟨q, by simp [deResult, deFields, e, needed, reqField, hq, deCategorized_same hl h2], hs⟩

theorem deWebType_same {t : Web.WebType} (h : Alike keep (.str t.wire) w) : deWebType w = .ok t := by
  rw [Alike] at h
  rw [h]
  cases t <;> rfl

theorem deInitial_same (strict : Bool) {wr : ℚ → Str} {read : Str → Option ℚ} {x : WireExport} {p : Project} {t : Web.WebType} (hp : ProjectSound p)
    (hr : RatiosBack wr read p) (h : Alike keep (initialJson wr x (some p) t) w) :
    ∃ q, deInitial strict read w = .ok (some (x, q), t) ∧ SameProjectIf keep p q := by
  obtain ⟨fs, e, hf⟩ := same_fields h (names := [c!"project", c!"web_type"]) rfl
  rcases hf with _ | ⟨⟨v1, rfl, h1⟩, _ | ⟨⟨v2, rfl, h2⟩, _ | _⟩⟩
  obtain ⟨q, hq, hs⟩ := deProject_same strict hp hr h1
  exact ⟨q, by simp [deInitial, deFields, e, needed, reqField, optField_same (alike_obj_not_null h1) hq, deWebType_same h2], hs⟩

theorem deInitial_none (strict : Bool) {wr : ℚ → Str} {read : Str → Option ℚ} {x : WireExport} {t : Web.WebType} (h : Alike keep (initialJson wr x none t) w) :
    deInitial strict read w = .ok (none, t) := by
  obtain ⟨fs, e, hf⟩ := same_fields h (names := [c!"project", c!"web_type"]) rfl
  rcases hf with _ | ⟨⟨v1, rfl, h1⟩, _ | ⟨⟨v2, rfl, h2⟩, _ | _⟩⟩
  rw [Json.ofOption, Alike] at h1
  subst h1
  simp [deInitial, deFields, e, needed, reqField, optField, deWebType_same h2]

/-! ## calls -/

theorem deIm_same {a : WireIm} (h : Alike keep a.toJson w) : deIm w = .ok a := by
  obtain ⟨fs, e, hf⟩ := same_fields h (names := [c!"name", c!"file", c!"partof", c!"done", c!"text"]) rfl
  rcases hf with _ | ⟨⟨v1, rfl, h1⟩, _ | ⟨⟨v2, rfl, h2⟩, _ | ⟨⟨v3, rfl, h3⟩, _ | ⟨⟨v4, rfl, h4⟩, _ | ⟨⟨v5, rfl, h5⟩, _ | _⟩⟩⟩⟩⟩
  simp [deIm, deFields, e, needed, reqField, deStr_same h1, deStr_same h2, deList_same_eq h3 (fun _ _ _ => deStr_same), optStr_same h4, deStr_same h5]

theorem deOp_same {op : WireOp} (h : Alike keep op.toJson w) : deOp w = .ok op := by
  cases op with
  | create a =>
    obtain ⟨r, h1, h2⟩ := deTag_same (tag := c!"op") (t := c!"create") h rfl
    obtain ⟨fs, e, hf⟩ := same_fields h2 (names := [c!"artifact"]) rfl
    rcases hf with _ | ⟨⟨v1, rfl, e1⟩, _ | _⟩
    simp [deOp, h1, deFields, e, needed, reqField, deIm_same e1]
  | update a i =>
    obtain ⟨r, h1, h2⟩ := deTag_same (tag := c!"op") (t := c!"update") h rfl
    obtain ⟨fs, e, hf⟩ := same_fields h2 (names := [c!"artifact", c!"orig_id"]) rfl
    rcases hf with _ | ⟨⟨v1, rfl, e1⟩, _ | ⟨⟨v2, rfl, e2⟩, _ | _⟩⟩
    simp [deOp, h1, deFields, e, needed, reqField, deIm_same e1, deStr_same e2]
  | delete n i =>
    obtain ⟨r, h1, h2⟩ := deTag_same (tag := c!"op") (t := c!"delete") h rfl
    obtain ⟨fs, e, hf⟩ := same_fields h2 (names := [c!"name", c!"orig_id"]) rfl
    rcases hf with _ | ⟨⟨v1, rfl, e1⟩, _ | ⟨⟨v2, rfl, e2⟩, _ | _⟩⟩
    simp [deOp, h1, deFields, e, needed, reqField, deStr_same e1, deStr_same e2]

end

end Art
