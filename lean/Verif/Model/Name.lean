import Verif.Model.Regex

/-!
# Artifact names and subnames
Models artifact-ser/src/name.rs and the name part of artifact-ser/src/family.rs.
-/

namespace Art

/-- Artifact type. artifact-ser/src/name.rs L99-105 (`Type`). -/
inductive Ty where
  | REQ | SPC | TST
  deriving DecidableEq, Repr

/-- artifact-ser/src/name.rs L527-534 (`Type::as_str`). -/
def Ty.asStr : Ty → Str
  | .REQ => c!"REQ"
  | .SPC => c!"SPC"
  | .TST => c!"TST"

/-- artifact-ser/src/name.rs L60-71 (`NameError`); messages are left out. -/
inductive NameErr where
  | invalidName | invalidCollapsed | invalidSubName
  deriving DecidableEq, Repr

/-- One character of `[A-Z0-9_]` under `(?i)`, artifact-ser/src/name.rs L154-159. -/
def nameCh : Re := .ch nameCharI

/-- artifact-ser/src/name.rs L162-168 (`NAME_VALID_STR`) under `(?i)`:
`(?:REQ|SPC|TST)-(?:[A-Z0-9_]+-)*(?:[A-Z0-9_]+)`. -/
def nameRe : Re :=
  .seq (.alt (.litI c!"REQ") (.alt (.litI c!"SPC") (.litI c!"TST")))
    (.seq (.litI c!"-")
      (.seq (.star true (.seq (.plus nameCh) (.litI c!"-"))) (.plus nameCh)))

/-- `\.(?:tst-)?[A-Z0-9_]+` under `(?i)`: artifact-ser/src/name.rs L181 (`VALID_SUB_NAME_RE`), the same
piece occurs in L185 and L197. -/
def subRe : Re :=
  .seq (.litI c!".") (.seq (.opt (.litI c!"tst-")) (.plus nameCh))

/-- artifact-ser/src/name.rs L134-143 (`InternalName`). -/
structure InternalName where
  ty : Ty
  key : Str
  raw : Str
  deriving DecidableEq, Repr

/-- artifact-ser/src/name.rs L340-363 (`InternalName::from_str`). `panic` is the `unreachable!()` of L354 or
the slice `&key[0..TYPE_SPLIT_LOC]` of L350 failing. -/
def InternalName.fromStr (raw : Str) : Res NameErr InternalName :=
  if !nameRe.isFull raw then .err .invalidName
  else
    let key := upper raw
    match byteSplit 3 key with
    | none => .panic
    | some (t, _) =>
      if t = c!"REQ" then .ok ⟨.REQ, key, raw⟩
      else if t = c!"SPC" then .ok ⟨.SPC, key, raw⟩
      else if t = c!"TST" then .ok ⟨.TST, key, raw⟩
      else .panic

/-- artifact-ser/src/name.rs L96 (`Name(Arc<InternalName>)`). The field is private and every constructor
goes through `from_str`, hence the proof component. -/
structure Name where
  inner : InternalName
  valid : InternalName.fromStr inner.raw = .ok inner

namespace Name

/-- Type of the name (field `ty` through `Deref`, artifact-ser/src/name.rs L310-316). -/
def ty (n : Name) : Ty := n.inner.ty
/-- artifact-ser/src/name.rs L251-253 (`key_str`). -/
def keyStr (n : Name) : Str := n.inner.key
/-- artifact-ser/src/name.rs L231-233 (`as_str`), also L279-283 (`Display`) and L285-292 (`Serialize`). -/
def raw (n : Name) : Str := n.inner.raw

theorem fromStr_raw {s : Str} {i : InternalName} (h : InternalName.fromStr s = .ok i) : i.raw = s := by
  unfold InternalName.fromStr at h
  split at h
  · simp at h
  · simp only at h
    split at h
    · simp at h
    · split at h
      · cases h; rfl
      · split at h
        · cases h; rfl
        · split at h
          · cases h; rfl
          · simp at h

/-- artifact-ser/src/name.rs L318-323 (`Name::from_str`), also L294-302 (`Deserialize`). -/
def fromStr (s : Str) : Res NameErr Name :=
  match h : InternalName.fromStr s with
  | .ok i => .ok ⟨i, by rw [fromStr_raw h]; exact h⟩
  | .err e => .err e
  | .panic => .panic

/-- Literal names for examples: `name!("…")`, artifact-ser/src/name.rs L38-45. -/
def lit (s : Str) (h : (InternalName.fromStr s).isOk = true := by decide) : Name :=
  match h' : InternalName.fromStr s with
  | .ok i => ⟨i, by rw [fromStr_raw h']; exact h'⟩
  | .err e => absurd h (by rw [h']; simp)
  | .panic => absurd h (by rw [h']; simp)

@[ext] theorem ext' {a b : Name} (h : a.inner = b.inner) : a = b := by
  cases a; cases b; simp_all

theorem ext_raw {a b : Name} (h : a.raw = b.raw) : a = b := by
  have ha := a.valid
  have hb := b.valid
  have h' : a.inner.raw = b.inner.raw := h
  rw [h', hb] at ha
  exact ext' (Res.ok.inj ha).symm

instance : DecidableEq Name := fun a b =>
  if h : a.inner = b.inner then isTrue (ext' h) else isFalse (fun e => h (by rw [e]))

/-- artifact-ser/src/name.rs L365-378: `Hash` and `PartialEq` of names look at type and key. -/
instance : HasKey Name (Ty × Str) := ⟨fun n => (n.ty, n.keyStr)⟩

/-- artifact-ser/src/name.rs L373-377: `PartialEq for InternalName`. -/
def beq (a b : Name) : Bool := a.ty == b.ty && a.keyStr == b.keyStr

/-- artifact-ser/src/name.rs L381-391: `Ord for InternalName` compares the keys. -/
def le (a b : Name) : Prop := a.keyStr ≤ b.keyStr

end Name

/-- artifact-ser/src/name.rs L107-132 (`SubName`, `InternalSubName`). `new_unchecked` is public, so there is no
proof component; see `SubName.fromStr` for checked creation. -/
structure SubName where
  raw : Str
  deriving DecidableEq, Repr

namespace SubName
/-- artifact-ser/src/name.rs L430-436: `key` is the upper-cased text. -/
def keyStr (s : SubName) : Str := upper s.raw

/-- artifact-ser/src/name.rs L499-511: `Hash`, `PartialEq` of subnames look at the key. -/
instance : HasKey SubName Str := ⟨keyStr⟩

/-- artifact-ser/src/name.rs L477-491 (`SubName::from_str`). -/
def fromStr (raw : Str) : Res NameErr SubName :=
  if !subRe.isFull raw then .err .invalidSubName else .ok ⟨raw⟩
end SubName

/-- artifact-ser/src/name.rs L270-276 (`Name::full`). -/
def Name.full (n : Name) (sub : Option SubName) : Str :=
  match sub with
  | some s => n.raw ++ s.raw
  | none => n.raw

/-- The text before the last `-`: `&s[0..s.rfind('-')?]`. artifact-ser/src/family.rs L90-92. -/
def beforeLastDash : Str → Option Str
  | [] => none
  | c :: s =>
    match beforeLastDash s with
    | some p => some (c :: p)
    | none => if c = '-' then some [] else none

/-- artifact-ser/src/family.rs L89-96 (`Name::parent`). `panic` stands for the two `expect`s. -/
def Name.parent (n : Name) : Res Unit (Option Name) :=
  match beforeLastDash n.raw with
  | none => .panic
  | some p =>
    if byteLen p = 3 then .ok none
    else match Name.fromStr p with
      | .ok m => .ok (some m)
      | _ => .panic

/-- artifact-ser/src/family.rs L104-115 (`Name::auto_partof`). `panic` stands for the slice of L113 and the
`unwrap` of L114. -/
def Name.autoPartof (n : Name) : Res Unit (Option Name) :=
  let go (ty : Ty) : Res Unit (Option Name) :=
    match byteSplit 3 n.raw with
    | none => .panic
    | some (_, rest) =>
      match Name.fromStr (ty.asStr ++ rest) with
      | .ok m => .ok (some m)
      | _ => .panic
  match n.ty with
  | .REQ => .ok none
  | .SPC => go .REQ
  | .TST => go .SPC

end Art
