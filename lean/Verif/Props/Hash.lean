import Verif.Lemmas.Hash
import Verif.Props.Modify

/-!
# Properties C30 and C31: what the id of an artifact says about it; the rest of C02

The specification part says when two artifacts have the same content, in terms of the texts the user wrote.
-/

namespace Art.Spec

/-- The parts of a path that matter. -/
def parts (p : FilePath) : List Str := (p.splitOn '/').filter (fun c => c ≠ [] ∧ c ≠ c!".")

/-- The parts of the path are shorter than the memory of any machine. -/
def ShortParts (p : FilePath) : Prop := ∀ c ∈ parts p, c.length < 2 ^ 62

/-- The same names in the same order, whatever the case of their letters. -/
def SameNames (l m : List Name) : Prop := l.map (fun n => upper n.raw) = m.map (fun n => upper n.raw)

/-- Everything is the same except for the case of letters in `partof`. -/
structure SameContent (a b : ArtifactIm) : Prop where
  name : a.name.raw = b.name.raw
  file : parts a.file = parts b.file
  partof : SameNames a.partof b.partof
  done : a.done = b.done
  text : a.text = b.text

/-- Eight NUL characters. -/
def nuls : Str := List.replicate 8 (Char.ofNat 0)

/-- `b` is part of one more design than `a` and not done, while `a` is done "with" that design and its text begins with NULs. -/
structure Confusable (a b : ArtifactIm) : Prop where
  name : a.name.raw = b.name.raw
  file : parts a.file = parts b.file
  rest : ∃ q : Name, q.ty = .SPC ∧ SameNames b.partof (a.partof ++ [q]) ∧ a.done = some (upper q.raw) ∧ b.done = none ∧
    a.text = nuls ++ b.text

/-- The path of a file in normal form: what `PathAbs` gives. -/
def Normal (p : FilePath) : Prop := ∃ l : List Str, (∀ c ∈ l, c ≠ [] ∧ '/' ∉ c ∧ c ≠ c!".") ∧ p = l.flatMap (fun c => '/' :: c)

/-- The characters of an id as text. -/
def UrlSafe (c : Char) : Prop :=
  ('A' ≤ c ∧ c ≤ 'Z') ∨ ('a' ≤ c ∧ c ≤ 'z') ∨ ('0' ≤ c ∧ c ≤ '9') ∨ c = '-' ∨ c = '_'

end Art.Spec

namespace Art
open Spec

/-! ## C02: hashing of names -/

/-- Equal names are hashed the same, different names give different bytes, and so do subnames: no two of them even begin alike. -/
theorem C02_hash (a b : Name) (s t : SubName) :
    (Name.beq a b = true ↔ a.stream = b.stream) ∧ (upper s.raw = upper t.raw ↔ s.stream = t.stream) ∧
    (∀ r r', a.stream ++ r = b.stream ++ r' → Name.beq a b = true) := by
  have h : Name.beq a b = true ↔ a.keyStr = b.keyStr := by rw [C02_eq_iff, Name.keyStr_eq, Name.keyStr_eq]
  refine ⟨⟨fun e => ?_, fun e => ?_⟩, ⟨fun e => ?_, fun e => ?_⟩, fun r r' e => h.2 (Name.stream_append e).1⟩
  · have e := h.1 e
    simp only [Name.stream, e, Name.ty_of_key e]
  · rw [h]
    exact (Name.stream_append (r := []) (r' := []) (by rw [e])).1
  · simp only [SubName.stream, SubName.keyStr, e]
  · exact (strStream_append (r := []) (r' := []) (by simpa [SubName.stream, SubName.keyStr] using e)).1

example : (Name.lit c!"SPC-key").stream = (Name.lit c!"sPc-KeY").stream ∧
    (Name.lit c!"SPC-key").stream ≠ (Name.lit c!"TST-key").stream := by decide

/-! ## C30 -/

theorem parts_eq (p : FilePath) : hashComps p = parts p := by
  unfold hashComps pathComps comps parts
  rw [List.filter_filter]
  congr 1
  funext c
  cases h : decide (c = c!".") <;> cases c <;> simp_all

theorem utf8_len (c : Char) : (String.utf8EncodeChar c).length ≤ 4 := by
  rw [String.length_utf8EncodeChar]
  exact Char.utf8Size_le_four c

theorem strBytes_len (s : Str) : (strBytes s).length ≤ 4 * s.length := by
  induction s with
  | nil => simp [strBytes]
  | cons c s ih =>
    have h : strBytes (c :: s) = String.utf8EncodeChar c ++ strBytes s := by simp [strBytes]
    have := utf8_len c
    rw [h, List.length_append, List.length_cons]
    omega

theorem sameNames_iff {l m : List Name} : SameNames l m ↔ l.map Name.keyStr = m.map Name.keyStr := by
  have : (fun n : Name => upper n.raw) = Name.keyStr := by
    funext n
    rw [Name.keyStr_eq]
  unfold SameNames
  rw [this]

theorem stream_eq (a : ArtifactIm) :
    a.stream = strStream a.name.raw ++ (u64 1 ++ ((hashComps a.file).flatMap compStream ++ restStream a.partof a.done a.text)) := by
  simp [ArtifactIm.stream, pathStream, restStream]

/-- Two artifacts write the same bytes to the hasher exactly if they have the same content, or are confused in one particular way. -/
theorem C30_stream_iff {a b : ArtifactIm} (ha : ShortParts a.file) (hb : ShortParts b.file) :
    a.stream = b.stream ↔ SameContent a b ∨ Confusable a b ∨ Confusable b a := by
  have short : ∀ {p : FilePath}, ShortParts p → ∀ c ∈ hashComps p, (strBytes c).length < 2 ^ 64 := by
    intro p hp c hc
    rw [parts_eq] at hc
    have h1 := hp c hc
    have h2 := strBytes_len c
    omega
  constructor
  · intro h
    rw [stream_eq, stream_eq] at h
    obtain ⟨e1, h⟩ := strStream_append h
    have h := (u64_append (by omega) (by omega) h).2
    obtain ⟨n, r, hn, er⟩ := restStream_head a.partof a.done a.text
    obtain ⟨n', r', hn', er'⟩ := restStream_head b.partof b.done b.text
    rw [er, er'] at h
    obtain ⟨e2, h⟩ := comps_append (short ha) (short hb) hn hn' h
    rw [← er, ← er'] at h
    rw [parts_eq, parts_eq] at e2
    rcases rest_inj h with ⟨e3, e4, e5⟩ | ⟨q, e3, e4, e5, e6, e7⟩ | ⟨q, e3, e4, e5, e6, e7⟩
    · exact Or.inl ⟨e1, e2, sameNames_iff.2 e3, e4, e5⟩
    · exact Or.inr (Or.inl ⟨e1, e2, q, e4, sameNames_iff.2 (by simpa using e3), by rw [e5, Name.keyStr_eq], e6, e7⟩)
    · exact Or.inr (Or.inr ⟨e1.symm, e2.symm, q, e4, sameNames_iff.2 (by simpa using e3), by rw [e5, Name.keyStr_eq], e6, e7⟩)
  · have confuse : ∀ {a b : ArtifactIm}, Confusable a b → a.stream = b.stream := by
      rintro a b ⟨e1, e2, q, e3, e4, e5, e6, e7⟩
      rw [stream_eq, stream_eq, e1, parts_eq, parts_eq, e2]
      congr 3
      unfold restStream
      rw [names_stream (sameNames_iff.1 e4), e5, e6, e7, ← Name.keyStr_eq]
      simp only [List.flatMap_append, List.flatMap_cons, List.flatMap_nil, List.append_nil, doneStream, Name.stream, e3, Ty.disc,
        strStream, strBytes_append, List.append_assoc]
      rw [show strBytes nuls = u64 0 from nuls_bytes]
    rintro (⟨e1, e2, e3, e4, e5⟩ | h | h)
    · rw [stream_eq, stream_eq, e1, parts_eq, parts_eq, e2]
      congr 3
      unfold restStream
      rw [names_stream (sameNames_iff.1 e3), e4, e5]
    · exact confuse h
    · exact (confuse h).symm

/-- If the text of neither begins with NULs, the bytes determine the content. -/
theorem C30_identifies {a b : ArtifactIm} (ha : ShortParts a.file) (hb : ShortParts b.file)
    (ta : ¬ nuls <+: a.text) (tb : ¬ nuls <+: b.text) : a.stream = b.stream ↔ SameContent a b := by
  rw [C30_stream_iff ha hb]
  constructor
  · rintro (h | ⟨_, _, q, _, _, _, _, e⟩ | ⟨_, _, q, _, _, _, _, e⟩)
    · exact h
    · exact absurd ⟨_, e.symm⟩ ta
    · exact absurd ⟨_, e.symm⟩ tb
  · exact Or.inl

/-- If both are done or both are not, the bytes determine the content. -/
theorem C30_identifies_done {a b : ArtifactIm} (ha : ShortParts a.file) (hb : ShortParts b.file)
    (hd : a.done.isSome = b.done.isSome) : a.stream = b.stream ↔ SameContent a b := by
  rw [C30_stream_iff ha hb]
  constructor
  · rintro (h | ⟨_, _, q, _, _, e, e', _⟩ | ⟨_, _, q, _, _, e, e', _⟩)
    · exact h
    · simp [e, e'] at hd
    · simp [e, e'] at hd
  · exact Or.inl

/-- Two artifacts that only differ in their text; the first is not done and part of another. -/
example : ShortParts exImB.file ∧ ShortParts exImB'.file ∧ ¬ nuls <+: exImB.text ∧ ¬ nuls <+: exImB'.text ∧
    exImB.done.isSome = exImB'.done.isSome ∧ exImB.stream ≠ exImB'.stream := by
  unfold ShortParts
  decide +kernel

theorem parts_normal {l : List Str} (h : ∀ c ∈ l, c ≠ [] ∧ '/' ∉ c ∧ c ≠ c!".") : parts (l.flatMap (fun c => '/' :: c)) = l := by
  have h1 : pathComps (pathOf l) = l := by
    rw [pathOf_eq]
    exact pathComps_Path (fun c hc => ⟨(h c hc).1, (h c hc).2.1⟩)
  rw [← parts_eq]
  unfold hashComps
  rw [show (l.flatMap (fun c => '/' :: c)) = pathOf l from rfl, h1, List.filter_eq_self]
  intro c hc
  simpa using (h c hc).2.2

/-- Paths in normal form are the same text if their parts are. -/
theorem normal_parts {p q : FilePath} (hp : Normal p) (hq : Normal q) (h : parts p = parts q) : p = q := by
  obtain ⟨l, hl, rfl⟩ := hp
  obtain ⟨m, hm, rfl⟩ := hq
  rw [parts_normal hl, parts_normal hm] at h
  rw [h]

/-- The links of these artifacts are written the same whenever they are the same name. -/
def Spec.LinkSpelling (l : List ArtifactIm) : Prop :=
  ∀ a ∈ l, ∀ b ∈ l, ∀ m ∈ a.partof, ∀ n ∈ b.partof, upper m.raw = upper n.raw → m = n

/-- For a hash function without collisions on these artifacts, different artifacts have different ids. This is the assumption
of the properties of modifications. -/
theorem C30_no_collision {sip : List UInt8 → HashIm} {p : Project} {ops : List ArtifactOp} {l : List ArtifactIm}
    (hl : ∀ a, (a ∈ editable p ∨ ∃ op ∈ ops, Brings op a) → a ∈ l)
    (hsip : ∀ a ∈ l, ∀ b ∈ l, sip a.stream = sip b.stream → a.stream = b.stream)
    (hfile : ∀ a ∈ l, Normal a.file ∧ ShortParts a.file) (htext : ∀ a ∈ l, ¬ nuls <+: a.text) (hspell : LinkSpelling l) :
    NoCollision (ArtifactIm.hashIm sip) p ops := by
  intro a b ha hb h
  have ha := hl a ha
  have hb := hl b hb
  obtain ⟨e1, e2, e3, e4, e5⟩ := (C30_identifies (hfile a ha).2 (hfile b hb).2 (htext a ha) (htext b hb)).1 (hsip a ha b hb h)
  have e1 : a.name = b.name := by
    have h1 := C02_roundtrip.1 a.name
    rw [e1, C02_roundtrip.1 b.name] at h1
    simpa using h1.symm
  have e2 := normal_parts (hfile a ha).1 (hfile b hb).1 e2
  have e3 : a.partof = b.partof := by
    have key : ∀ {l m : List Name}, (∀ x ∈ l, x ∈ a.partof) → (∀ x ∈ m, x ∈ b.partof) → SameNames l m → l = m := by
      intro l
      induction l with
      | nil =>
        intro m _ _ hs
        cases m with
        | nil => rfl
        | cons _ _ => simp [SameNames] at hs
      | cons x l ih =>
        intro m h1 h2 hs
        cases m with
        | nil => simp [SameNames] at hs
        | cons y m =>
          simp only [SameNames, List.map_cons, List.cons.injEq] at hs
          rw [hspell a ha b hb x (h1 x (by simp)) y (h2 y (by simp)) hs.1,
            ih (fun z hz => h1 z (by simp [hz])) (fun z hz => h2 z (by simp [hz])) hs.2]
    exact key (fun _ h => h) (fun _ h => h) e3
  cases a
  cases b
  simp_all

/-- A simple hash function. -/
def exSip (l : List UInt8) : HashIm :=
  ⟨(Vector.range 16).map fun i => UInt8.ofNat (l.foldl (fun h b => (h * 31 + b.toNat + 7) % 2 ^ 61) 5 / 2 ^ i)⟩

theorem normal_of {p : FilePath} (h : p = (parts p).flatMap (fun c => '/' :: c)) (hs : ∀ c ∈ parts p, '/' ∉ c) : Normal p :=
  ⟨parts p, fun c hc => ⟨by simp [parts] at hc; exact hc.2.1, hs c hc, by simp [parts] at hc; exact hc.2.2⟩, h⟩

/-- The assumptions are met by a project and a batch of operations. -/
example : NoCollision (ArtifactIm.hashIm exSip) exProject exOps := by
  refine C30_no_collision (l := editable exProject ++ exOps.flatMap ArtifactOp.brought) ?_ (by decide +kernel) ?_ (by decide +kernel)
    (by unfold LinkSpelling; decide +kernel)
  · rintro a (h | ⟨op, ho, h⟩)
    · exact List.mem_append_left _ h
    · exact List.mem_append_right _ (List.mem_flatMap.2 ⟨op, ho, mem_brought.2 h⟩)
  · have h : ∀ a ∈ editable exProject ++ exOps.flatMap ArtifactOp.brought,
        a.file = (parts a.file).flatMap (fun c => '/' :: c) ∧ (∀ c ∈ parts a.file, '/' ∉ c) ∧ ∀ c ∈ parts a.file, c.length < 2 ^ 62 := by
      decide +kernel
    exact fun a ha => ⟨normal_of (h a ha).1 (h a ha).2.1, (h a ha).2.2⟩

/-- Two artifacts, both in the form in which they are saved, with the same id whatever the hash function. -/
theorem C30_collision : ∃ a b : ArtifactIm, a.clean = a ∧ b.clean = b ∧ a.text ≠ b.text ∧ a.done ≠ b.done ∧
    a.partof.length ≠ b.partof.length ∧ ∀ sip, a.hashIm sip = b.hashIm sip := by
  refine ⟨⟨Name.lit c!"SPC-x", c!"/p/x.md", [], some c!"SPC-A", nuls ++ c!"hello"⟩,
    ⟨Name.lit c!"SPC-x", c!"/p/x.md", [Name.lit c!"SPC-a"], none, c!"hello"⟩, by decide, by decide, by decide, by decide, by decide, ?_⟩
  intro sip
  unfold ArtifactIm.hashIm
  congr 1

/-- Changing the case of letters in `partof` does not change the id. -/
theorem C30_partof_case : ∃ a b : ArtifactIm, a.clean = a ∧ b.clean = b ∧ a ≠ b ∧ ∀ sip, a.hashIm sip = b.hashIm sip := by
  refine ⟨⟨Name.lit c!"SPC-x", c!"/p/x.md", [Name.lit c!"SPC-A"], none, c!"hello"⟩,
    ⟨Name.lit c!"SPC-x", c!"/p/x.md", [Name.lit c!"SPC-a"], none, c!"hello"⟩, by decide, by decide, by decide, ?_⟩
  intro sip
  unfold ArtifactIm.hashIm
  congr 1

/-! ## C31 -/

theorem urlSafe_iff (c : Char) : c ∈ b64Alphabet ↔ UrlSafe c := by
  have h : c ∈ b64Alphabet ↔ c.toNat ∈ b64Alphabet.map Char.toNat := by
    rw [List.mem_map]
    constructor
    · exact fun h => ⟨c, h, rfl⟩
    · rintro ⟨d, hd, e⟩
      rw [← char_eq.2 e]
      exact hd
  rw [h]
  unfold UrlSafe
  simp only [char_le, char_eq]
  simp only [b64Alphabet, List.map_cons, List.map_nil, List.mem_cons, List.not_mem_nil, or_false, Char.reduceToNat]
  omega

/-- Reading the text of an id gives the id. -/
theorem C31_roundtrip (strict : Bool) (h : HashIm) : HashIm.de strict h.ser = .ok h := by
  unfold HashIm.de HashIm.ser
  rw [b64_roundtrip]
  have hl : h.bytes.toList.length = 16 := by simp
  simp only [hl, le_refl, dite_true, Nat.sub_self, List.replicate_zero, List.append_nil]
  obtain ⟨⟨l, hs⟩⟩ := h
  simp

/-- The text of an id has 22 characters, all of them safe in an address; different ids have different texts. -/
theorem C31_text (h h' : HashIm) : h.ser.length = 22 ∧ (∀ c ∈ h.ser, UrlSafe c) ∧ (h.ser = h'.ser → h = h') := by
  refine ⟨?_, fun c hc => (urlSafe_iff c).1 (b64_alphabet _ c hc), fun e => ?_⟩
  · rw [HashIm.ser, b64_length]
    simp
  · have h1 := C31_roundtrip false h
    rw [e, C31_roundtrip] at h1
    simpa using h1.symm

/-- What is read as an id: any word over the alphabet of at most 22 characters, except for lengths `4k+1`. Longer words panic. -/
theorem C31_accepts {s : Str} (h : ∀ c ∈ s, UrlSafe c) :
    (s.length ≤ 22 → s.length % 4 ≠ 1 → ∃ i, HashIm.de false s = .ok i) ∧
    (22 < s.length → s.length % 4 ≠ 1 → HashIm.de false s = .panic) := by
  have hs : ∀ c ∈ s, c ∈ b64Alphabet := fun c hc => (urlSafe_iff c).2 (h c hc)
  refine ⟨fun h1 h2 => ?_, fun h1 h2 => ?_⟩
  · obtain ⟨l, e, hl⟩ := b64Decode_ok hs h2
    have : l.length ≤ 16 := by omega
    unfold HashIm.de
    simp only [e, this, dite_true]
    exact ⟨_, rfl⟩
  · obtain ⟨l, e, hl⟩ := b64Decode_ok hs h2
    have : ¬ l.length ≤ 16 := by omega
    unfold HashIm.de
    simp only [e, this, dite_false]

/-- A text that is cut off is read as another id, without an error. -/
theorem C31_short_accepted (strict : Bool) : ∃ s i, s.length < 22 ∧ HashIm.de strict s = .ok i ∧ i.ser ≠ s ∧
    ∃ h : HashIm, s <+: h.ser ∧ h ≠ i := by
  refine ⟨c!"AQID", ⟨#v[1, 2, 3, 0, 0, 0, 0, 0, 0, 0, 0, 0, 0, 0, 0, 0]⟩, by decide, ?_, by decide,
    ⟨#v[1, 2, 3, 4, 0, 0, 0, 0, 0, 0, 0, 0, 0, 0, 0, 0]⟩, by decide, by decide⟩
  cases strict <;> decide

example : (⟨#v[255, 254, 253, 4, 5, 6, 7, 8, 9, 10, 11, 12, 13, 14, 15, 16]⟩ : HashIm).ser = c!"__79BAUGBwgJCgsMDQ4PEA" := by decide
example : HashIm.de false c!"__79BAUGBwgJCgsMDQ4PEAAA" = .panic := by decide

end Art
