import Verif.Model.Fs

/-!
# Ids of artifacts
Models `Hash for ArtifactIm` and `hash_im` (artifact-lib/src/lib.rs), `Hash for InternalName` and `Hash for SubName`
(artifact-ser/src/name.rs), and the serialised form of `HashIm` (artifact-ser/src/lib.rs).

Simplifications: a `Hasher` is modelled by the bytes written to it, one after the other (SipHash does not see how they are
cut into calls of `write`). Integers and enum discriminants are written as 8 bytes, least significant first: a 64 bit
little endian machine. A `str` writes its UTF-8 bytes and `0xff`, a path writes its components, as in the standard library
of the time.
-/

namespace Art

/-- The UTF-8 bytes of a text (Rust `str::as_bytes`). Used for artifact-lib/src/lib.rs L283, L290. -/
def strBytes (s : Str) : List UInt8 := s.flatMap String.utf8EncodeChar

/-- `Hash for str` of the standard library, used at artifact-lib/src/lib.rs L283, L290 and artifact-ser/src/name.rs L369, L501. -/
def strStream (s : Str) : List UInt8 := strBytes s ++ [0xff]

/-- `Hasher::write_usize`, used for enum discriminants and lengths. Used for artifact-lib/src/lib.rs L289 and artifact-ser/src/name.rs L367. -/
def u64 (n : Nat) : List UInt8 := (List.range 8).map fun i => UInt8.ofNat (n / 256 ^ i)

/-- The discriminant of `Type`: artifact-ser/src/name.rs L101-105, in the order of declaration. -/
def Ty.disc : Ty → Nat
  | .REQ => 0
  | .SPC => 1
  | .TST => 2

/-- artifact-ser/src/name.rs L365-371 (`Hash for InternalName`, which `Name` derives from). -/
def Name.stream (n : Name) : List UInt8 := u64 n.ty.disc ++ strStream n.keyStr

/-- artifact-ser/src/name.rs L499-503 (`Hash for SubName`). -/
def SubName.stream (n : SubName) : List UInt8 := strStream n.keyStr

/-- `Hash for Component` of the standard library (derived): `ParentDir` is the fourth variant, `Normal` the fifth, and an
`OsStr` is hashed as a slice, that is its length and its bytes. Used for artifact-lib/src/lib.rs L284. -/
def compStream (c : Str) : List UInt8 :=
  if c = c!".." then u64 3 else u64 4 ++ u64 (strBytes c).length ++ strBytes c

/-- The components of an absolute path after the root: `Path::components` leaves out empty ones and `.`. Used for artifact-lib/src/lib.rs L284. -/
def hashComps (p : FilePath) : List Str := (pathComps p).filter (fun c => c != c!".")

/-- `Hash for Path` of the standard library: `RootDir` (second variant), then the other components.
Used at artifact-lib/src/lib.rs L284. -/
def pathStream (p : FilePath) : List UInt8 := u64 1 ++ (hashComps p).flatMap compStream

/-- `Hash for Option<String>` of the standard library (derived), used at artifact-lib/src/lib.rs L289. -/
def doneStream : Option Str → List UInt8
  | none => u64 0
  | some d => u64 1 ++ strStream d

/-- artifact-lib/src/lib.rs L277-292 (`Hash for ArtifactIm`). -/
def ArtifactIm.stream (a : ArtifactIm) : List UInt8 :=
  strStream a.name.raw ++ pathStream a.file ++ a.partof.flatMap Name.stream ++ doneStream a.done ++ strStream a.text

/-- artifact-lib/src/lib.rs L243-247 (`hash_im`). `sip` is SipHash-2-4 with 128 bits of output, of which nothing is assumed. -/
def ArtifactIm.hashIm (sip : List UInt8 → HashIm) (a : ArtifactIm) : HashIm := sip a.stream

/-! ## the id as text -/

/-- The alphabet of `base64::URL_SAFE_NO_PAD`, used at artifact-ser/src/lib.rs L254, L266. -/
def b64Alphabet : Str := c!"ABCDEFGHIJKLMNOPQRSTUVWXYZabcdefghijklmnopqrstuvwxyz0123456789-_"

/-- One character for six bits. artifact-ser/src/lib.rs L254. -/
def b64Char (n : Nat) : Char := b64Alphabet.getD n 'A'

/-- Six bits for one character, if it is one of the alphabet. artifact-ser/src/lib.rs L266. -/
def b64Val (c : Char) : Option Nat := b64Alphabet.findIdx? (· == c)

/-- `base64::encode_config(_, URL_SAFE_NO_PAD)`, used at artifact-ser/src/lib.rs L254. -/
def b64Encode : List UInt8 → Str
  | a :: b :: c :: r =>
    b64Char (a.toNat / 4) :: b64Char (a.toNat % 4 * 16 + b.toNat / 16) :: b64Char (b.toNat % 16 * 4 + c.toNat / 64) ::
      b64Char (c.toNat % 64) :: b64Encode r
  | [a, b] => [b64Char (a.toNat / 4), b64Char (a.toNat % 4 * 16 + b.toNat / 16), b64Char (b.toNat % 16 * 4)]
  | [a] => [b64Char (a.toNat / 4), b64Char (a.toNat % 4 * 16)]
  | [] => []

/-- `base64::decode_config(_, URL_SAFE_NO_PAD)`, used at artifact-ser/src/lib.rs L266. `strict` says whether bits that are left over must
be zero, which differs between versions of the crate. Simplification: padding characters are refused. -/
def b64Decode (strict : Bool) : Str → Option (List UInt8)
  | w :: x :: y :: z :: r => do
    let w ← b64Val w
    let x ← b64Val x
    let y ← b64Val y
    let z ← b64Val z
    let r ← b64Decode strict r
    pure (UInt8.ofNat (w * 4 + x / 16) :: UInt8.ofNat (x % 16 * 16 + y / 4) :: UInt8.ofNat (y % 4 * 64 + z) :: r)
  | [w, x, y] => do
    let w ← b64Val w
    let x ← b64Val x
    let y ← b64Val y
    if strict && y % 4 != 0 then none
    else pure [UInt8.ofNat (w * 4 + x / 16), UInt8.ofNat (x % 16 * 16 + y / 4)]
  | [w, x] => do
    let w ← b64Val w
    let x ← b64Val x
    if strict && x % 16 != 0 then none else pure [UInt8.ofNat (w * 4 + x / 16)]
  | [_] => none
  | [] => some []

/-- artifact-ser/src/lib.rs L249-257 (`Serialize for HashIm`). -/
def HashIm.ser (h : HashIm) : Str := b64Encode h.bytes.toList

/-- artifact-ser/src/lib.rs L259-270 (`Deserialize for HashIm`): the bytes are written to the front of an array of zeros.
`decode_config_slice` panics if the array is too short. -/
def HashIm.de (strict : Bool) (s : Str) : Res Unit HashIm :=
  match b64Decode strict s with
  | none => .err ()
  | some l => if h : l.length ≤ 16 then
      .ok ⟨⟨(l ++ List.replicate (16 - l.length) 0).toArray, by simp; omega⟩⟩
    else .panic

end Art
