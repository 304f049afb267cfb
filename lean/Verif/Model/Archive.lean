import Verif.Model.Hash
import Verif.Model.Art

/-!
# The archive with the web page

artifact-app/build.rs packs the directory with the web page into `frontend.tar`, which becomes part of the program (artifact-app/src/frontend.rs L23) and is unpacked by
`art serve` and `art export html`. The format is that of `tar` 0.4.20 with old headers, as the library documents it; errors of the disk while packing are left out.
-/

namespace Art
namespace Archive

/-- artifact-app/build.rs L130-131: what is in a file. -/
abbrev Bytes := List UInt8

/-- artifact-app/build.rs L118-125: a directory as `PathDir::list` shows it, in this order: files with what is in them, and directories. -/
inductive Tree where
  | nil
  | file (name : Str) (content : Bytes) (rest : Tree)
  | dir (name : Str) (sub : Tree) (rest : Tree)

/-- artifact-app/build.rs L128 (`header.set_path`): the text of a relative path. -/
def pathText : List Str → Str
  | [] => []
  | [n] => n
  | n :: l => n ++ '/' :: pathText l

/-- artifact-app/build.rs L127-129: a number with a fixed number of octal digits. -/
def octDigits : Nat → Nat → Bytes
  | 0, _ => []
  | w + 1, n => octDigits w (n / 8) ++ [UInt8.ofNat (48 + n % 8)]

/-- artifact-app/build.rs L127-129: a field with a number ends with a zero byte. -/
def octField (len n : Nat) : Bytes := octDigits (len - 1) n ++ [0]

/-- artifact-app/build.rs L129 (`set_cksum`): the sum of all bytes. -/
def byteSum (l : Bytes) : Nat := (l.map UInt8.toNat).sum

/-- artifact-app/build.rs L126-128: the part of the header before the checksum: name, mode, user, group, size and time (`HeaderMode::Deterministic`). The mode is that of a
file that is not executable; unpacking by this program does not depend on it. -/
def headStart (name : Bytes) (size : Nat) : Bytes :=
  name ++ List.replicate (100 - name.length) 0 ++ octField 8 0o644 ++ octField 8 0 ++ octField 8 0 ++ octField 12 size ++ octField 12 0

/-- artifact-app/build.rs L126-128: the part after the checksum: a regular file, no link. -/
def headEnd : Bytes := 48 :: List.replicate 355 0

/-- artifact-app/build.rs L126-129: the header of a file; `none` is the error of `set_path` for a name that does not fit into 100 bytes. -/
def header (path : List Str) (size : Nat) : Option Bytes :=
  let name := strBytes (pathText path)
  if 100 < name.length then none
  else some (headStart name size ++ octField 8 (byteSum (headStart name size) + 8 * 32 + byteSum headEnd) ++ headEnd)

/-- artifact-app/build.rs L131 (`builder.append`): a file is filled up to a multiple of 512 bytes. -/
def padding (size : Nat) : Bytes := List.replicate ((512 - size % 512) % 512) 0

/-- artifact-app/build.rs L113-134 (`tar_dir`): what is written, and whether the result is `Ok`. The result for a directory in the directory is not looked at (L122). -/
def tarDir (pre : List Str) : Tree → Bytes × Bool
  | .nil => ([], true)
  | .file n c rest =>
    match header (pre ++ [n]) c.length with
    | none => ([], false)
    | some h =>
      let r := tarDir pre rest
      (h ++ c ++ padding c.length ++ r.1, r.2)
  | .dir n sub rest =>
    let s := tarDir (pre ++ [n]) sub
    let r := tarDir pre rest
    (s.1 ++ r.1, r.2)

/-- artifact-app/build.rs L94-111 (`tar_frontend`), L12: the archive, or `none` if the build fails. The end are 1024 zero bytes (`builder.finish`). -/
def tarFrontend (t : Tree) : Option Bytes :=
  let r := tarDir [] t
  if r.2 then some (r.1 ++ List.replicate 1024 0) else none

/-- artifact-app/src/frontend.rs L34: a number in a header (`Archive::unpack`): the text before the first zero byte, without spaces around it. Signs are left out. -/
def parseOct (f : Bytes) : Option Nat :=
  let t := (((f.takeWhile (· != 0)).dropWhile (· == 32)).reverse.dropWhile (· == 32)).reverse
  if t.isEmpty then none
  else t.foldlM (fun a b => if 48 ≤ b.toNat ∧ b.toNat < 56 then some (a * 8 + (b.toNat - 48)) else none) 0

/-- artifact-app/src/frontend.rs L34: a field of a header. -/
def field (h : Bytes) (start len : Nat) : Bytes := (h.drop start).take len

/-- artifact-app/src/frontend.rs L34: the sum that the header must contain; the bytes of the sum count as spaces. -/
def checksum (h : Bytes) : Nat := byteSum (h.take 148) + 8 * 32 + byteSum (h.drop 156)

/-- artifact-app/src/frontend.rs L34: the size of a file in the archive. -/
def roundUp (size : Nat) : Nat := (size + 511) / 512 * 512

/-- artifact-app/src/frontend.rs L33-34 (`Archive::new`, `archive.unpack`): headers with the bytes of their files; `none` is an error. The archive ends with a block of zeros or
where there are no more bytes. -/
def readTar (b : Bytes) : Option (List (Bytes × Bytes)) :=
  if b.isEmpty then some []
  else if _h : b.length < 512 then none
  else
    let h := b.take 512
    if h.all (· == 0) then some []
    else
      match parseOct (field h 148 8), parseOct (field h 124 12) with
      | some ck, some size =>
        if ck ≠ checksum h then none
        else if (b.drop 512).length < roundUp size then none
        else (readTar ((b.drop 512).drop (roundUp size))).map (fun r => (h, (b.drop 512).take size) :: r)
      | _, _ => none
termination_by b.length
decreasing_by simp; omega

/-- artifact-app/src/frontend.rs L34: the parts of a path. -/
def splitPath : Bytes → List Bytes
  | [] => [[]]
  | c :: l =>
    if c = 47 then [] :: splitPath l
    else match splitPath l with
      | [] => [[c]]
      | x :: r => (c :: x) :: r

/-- artifact-app/src/frontend.rs L34 (`unpack_in`): where an entry goes and what is in it. An entry with `..` in its path or without a name is left out (`some none`); entries that
are no files (`none`) do not occur in the archive and are not modelled. -/
def placeOf (e : Bytes × Bytes) : Option (Option (List Bytes × Bytes)) :=
  let name := (e.1.take 100).takeWhile (· != 0)
  let parts := (splitPath name).filter (fun c => !c.isEmpty && c != [46])
  if (field e.1 156 1 ≠ [48] ∧ field e.1 156 1 ≠ [0]) ∨ name.getLast? = some 47 then none
  else if [46, 46] ∈ parts ∨ parts = [] then some none
  else some (some (parts, e.2))

/-- artifact-app/src/frontend.rs L33-34: the files that are unpacked. -/
def unpackTar (b : Bytes) : Option (List (List Bytes × Bytes)) := do
  let es ← readTar b
  let ps ← es.mapM placeOf
  return ps.filterMap id

end Archive
end Art
