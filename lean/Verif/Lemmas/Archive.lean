import Verif.Spec.Archive
import Verif.Lemmas.Hash

/-!
# Lemmas about the archive with the web page
-/

namespace Art
namespace Archive
open Spec

/-! ## numbers -/

theorem octDigits_length : ∀ w n, (octDigits w n).length = w
  | 0, _ => rfl
  | w + 1, n => by simp [octDigits, octDigits_length w]

theorem octDigits_mem : ∀ {w n : Nat} {b : UInt8}, b ∈ octDigits w n → 48 ≤ b.toNat ∧ b.toNat < 56
  | 0, _, _, h => by cases h
  | w + 1, n, b, h => by
    simp only [octDigits, List.mem_append, List.mem_singleton] at h
    rcases h with h | rfl
    · exact octDigits_mem h
    · rw [UInt8.toNat_ofNat']
      omega

theorem octField_length {len n : Nat} (h : 0 < len) : (octField len n).length = len := by
  simp only [octField, List.length_append, octDigits_length, List.length_singleton]
  omega

theorem foldOct : ∀ (w n a : Nat), (octDigits w n).foldlM (fun (a : Nat) (b : UInt8) => if 48 ≤ b.toNat ∧ b.toNat < 56 then some (a * 8 + (b.toNat - 48)) else none) a =
    some (a * 8 ^ w + n % 8 ^ w)
  | 0, n, a => by simp [octDigits, Nat.mod_one]
  | w + 1, n, a => by
    have e : (48 + n % 8) % 2 ^ 8 = 48 + n % 8 := by omega
    simp only [octDigits, List.foldlM_append, foldOct w, Option.bind_eq_bind, Option.bind_some, List.foldlM_cons, List.foldlM_nil, UInt8.toNat_ofNat', e]
    rw [if_pos (by omega)]
    simp only [Option.bind_some, Option.pure_def, Option.some.injEq]
    have h1 : n % 8 ^ (w + 1) = n % 8 + 8 * (n / 8 % 8 ^ w) := by rw [Nat.pow_succ', Nat.mod_mul]
    rw [h1, Nat.pow_succ]
    rw [Nat.add_mul, Nat.mul_assoc]
    omega

theorem dropWhile_none {p : UInt8 → Bool} : ∀ {l : Bytes}, (∀ b ∈ l, p b = false) → l.dropWhile p = l
  | [], _ => rfl
  | b :: l, h => by rw [List.dropWhile_cons_of_neg (by simp [h b])]

theorem takeWhile_stop {p : UInt8 → Bool} : ∀ {l : Bytes} {b : UInt8} {r : Bytes}, (∀ x ∈ l, p x = true) → p b = false → (l ++ b :: r).takeWhile p = l
  | [], b, r, _, h => by simp [h]
  | a :: l, b, r, h, h' => by
    rw [List.cons_append, List.takeWhile_cons_of_pos (h a (by simp)), takeWhile_stop (fun x hx => h x (by simp [hx])) h']

theorem parseOct_field {w n : Nat} (hw : 0 < w) (h : n < 8 ^ w) : parseOct (octField (w + 1) n) = some n := by
  have hd : ∀ b ∈ octDigits w n, 48 ≤ b.toNat ∧ b.toNat < 56 := fun b hb => octDigits_mem hb
  have e1 : (octField (w + 1) n).takeWhile (· != 0) = octDigits w n := by
    unfold octField
    refine takeWhile_stop (fun x hx => ?_) rfl
    have := hd x hx
    simp only [bne_iff_ne, ne_eq]
    rintro rfl
    simp at this
  have e2 : ∀ b ∈ octDigits w n, (b == 32) = false := fun b hb => by
    have := hd b hb
    simp only [beq_eq_false_iff_ne, ne_eq]
    rintro rfl
    simp at this
  unfold parseOct
  simp only [e1, dropWhile_none e2]
  rw [dropWhile_none (fun b hb => e2 b (List.mem_reverse.1 hb)), List.reverse_reverse, if_neg, foldOct]
  · simp [Nat.mod_eq_of_lt h]
  · rw [List.isEmpty_iff]
    intro e
    have := octDigits_length w n
    rw [e] at this
    simp at this
    omega

theorem byteSum_le : ∀ l : Bytes, byteSum l ≤ 255 * l.length
  | [] => by simp [byteSum]
  | b :: l => by
    have := byteSum_le l
    have hb := b.toNat_lt
    simp only [byteSum, List.map_cons, List.sum_cons, List.length_cons] at *
    omega

/-! ## headers -/

theorem headStart_length {name : Bytes} {size : Nat} (h : name.length ≤ 100) : (headStart name size).length = 148 := by
  simp only [headStart, List.length_append, List.length_replicate, octField_length (show 0 < 8 by decide), octField_length (show 0 < 12 by decide)]
  omega

theorem headEnd_length : headEnd.length = 356 := by rw [headEnd, List.length_cons, List.length_replicate]

theorem header_some {path : List Str} {size : Nat} (h : ¬ Long path) : ∃ x, header path size = some x ∧ x = headStart (strBytes (pathText path)) size ++
    octField 8 (byteSum (headStart (strBytes (pathText path)) size) + 8 * 32 + byteSum headEnd) ++ headEnd := by
  refine ⟨_, ?_, rfl⟩
  unfold header
  exact if_neg h

theorem header_none {path : List Str} {size : Nat} (h : Long path) : header path size = none := by
  unfold header
  exact if_pos h

theorem drop_left {l r : Bytes} {n : Nat} (h : l.length = n) : (l ++ r).drop n = r := by subst h; simp
theorem take_left' {l r : Bytes} {n : Nat} (h : l.length = n) : (l ++ r).take n = l := by subst h; simp

/-- What the reader finds in a header. -/
theorem header_facts {path : List Str} {size : Nat} {x : Bytes} (hx : header path size = some x) (hs : size < 8 ^ 11) :
    x.length = 512 ∧ x.all (· == 0) = false ∧ parseOct (field x 148 8) = some (checksum x) ∧ parseOct (field x 124 12) = some size ∧ field x 156 1 = [48] ∧
      x.take 100 = strBytes (pathText path) ++ List.replicate (100 - (strBytes (pathText path)).length) 0 := by
  have hl : ¬ Long path := fun hl => by rw [header_none hl] at hx; cases hx
  obtain ⟨y, hy, e⟩ := header_some (size := size) hl
  rw [hx] at hy
  cases hy
  have hn : (strBytes (pathText path)).length ≤ 100 := by unfold Long at hl; omega
  generalize strBytes (pathText path) = name at *
  have l1 := headStart_length (size := size) hn
  have l2 : (octField 8 (byteSum (headStart name size) + 8 * 32 + byteSum headEnd)).length = 8 := octField_length (by decide)
  have l3 := headEnd_length
  have eck : checksum x = byteSum (headStart name size) + 8 * 32 + byteSum headEnd := by
    unfold checksum
    rw [e, List.append_assoc, take_left' l1, ← List.append_assoc, drop_left (by rw [List.length_append, l1, l2])]
  refine ⟨by rw [e, List.length_append, List.length_append, l1, l2, l3], ?_, ?_, ?_, ?_, ?_⟩
  · rw [List.all_eq_false]
    exact ⟨48, by rw [e]; exact List.mem_append_right _ (List.mem_cons_self ..), by decide⟩
  · have : field x 148 8 = octField (7 + 1) (checksum x) := by
      unfold field
      rw [eck, e, List.append_assoc, drop_left l1, take_left' l2]
    rw [this]
    refine parseOct_field (by decide) ?_
    have a := byteSum_le (headStart name size)
    have b := byteSum_le headEnd
    rw [l1] at a
    rw [l3] at b
    rw [eck]
    omega
  · have : field x 124 12 = octField (11 + 1) size := by
      unfold field
      rw [e]
      unfold headStart
      have l4 : (name ++ List.replicate (100 - name.length) 0 ++ octField 8 0o644 ++ octField 8 0 ++ octField 8 0).length = 124 := by
        simp only [List.length_append, List.length_replicate, octField_length (show 0 < 8 by decide)]
        omega
      generalize name ++ List.replicate (100 - name.length) 0 ++ octField 8 0o644 ++ octField 8 0 ++ octField 8 0 = z at *
      simp only [List.append_assoc]
      rw [drop_left l4, take_left' (octField_length (by decide))]
    rw [this]
    exact parseOct_field (by decide) hs
  · unfold field
    rw [e, drop_left (by rw [List.length_append, l1, l2])]
    rfl
  · rw [e]
    unfold headStart
    have l4 : (name ++ List.replicate (100 - name.length) (0 : UInt8)).length = 100 := by
      simp only [List.length_append, List.length_replicate]
      omega
    generalize name ++ List.replicate (100 - name.length) (0 : UInt8) = z at *
    simp only [List.append_assoc]
    rw [take_left' l4]

theorem padded {c : Bytes} : (c ++ padding c.length).length = roundUp c.length := by
  simp only [padding, roundUp, List.length_append, List.length_replicate]
  omega

/-- The reader finds the file that was written first. -/
theorem readTar_file {path : List Str} {c x r : Bytes} (hx : header path c.length = some x) (hs : c.length < 8 ^ 11) :
    readTar (x ++ c ++ padding c.length ++ r) = (readTar r).map (fun l => (x, c) :: l) := by
  obtain ⟨f1, f2, f3, f4, -, -⟩ := header_facts hx hs
  have e : x ++ c ++ padding c.length ++ r = x ++ ((c ++ padding c.length) ++ r) := by simp [List.append_assoc]
  have hp := padded (c := c)
  rw [e, readTar]
  have t1 : (x ++ ((c ++ padding c.length) ++ r)).take 512 = x := take_left' f1
  have t2 : (x ++ ((c ++ padding c.length) ++ r)).drop 512 = (c ++ padding c.length) ++ r := drop_left f1
  have n1 : (x ++ ((c ++ padding c.length) ++ r)).isEmpty = false := by
    cases x with
    | nil => cases f1
    | cons => rfl
  have n2 : ¬ (x ++ ((c ++ padding c.length) ++ r)).length < 512 := by rw [List.length_append, f1]; omega
  have n3 : ¬ ((c ++ padding c.length) ++ r).length < roundUp c.length := by rw [List.length_append, hp]; omega
  simp only [t1, t2, n1, f2, f3, f4, Bool.false_eq_true, if_false, dif_neg n2, ne_eq, not_true_eq_false, if_neg n3]
  rw [drop_left hp, List.append_assoc, List.take_left']
  rfl

theorem readTar_end : readTar (List.replicate 1024 0) = some [] := by
  rw [readTar]
  rw [if_neg (by rw [List.isEmpty_iff]; intro e; cases e), dif_neg (by rw [List.length_replicate]; omega)]
  simp only [List.take_replicate]
  rw [if_pos]
  rw [List.all_eq_true]
  intro x hx
  rw [List.eq_of_mem_replicate hx]
  rfl

/-! ## names -/

theorem ascii_byte {c : Char} {b : UInt8} (hb : b ∈ String.utf8EncodeChar c) (h : b.toNat < 128) : c.toNat = b.toNat := by
  unfold String.utf8EncodeChar at hb
  have hv := c.val.toNat_lt
  simp only at hb
  split at hb
  · simp only [List.mem_singleton] at hb
    subst hb
    simp only [UInt8.toNat_ofNat', Char.toNat] at *
    omega
  · split at hb
    · simp only [List.mem_cons, List.not_mem_nil, or_false] at hb
      rcases hb with rfl | rfl <;> simp only [UInt8.toNat_ofNat', Nat.reducePow] at h <;> omega
    · split at hb
      · simp only [List.mem_cons, List.not_mem_nil, or_false] at hb
        rcases hb with rfl | rfl | rfl <;> simp only [UInt8.toNat_ofNat', Nat.reducePow] at h <;> omega
      · simp only [List.mem_cons, List.not_mem_nil, or_false] at hb
        rcases hb with rfl | rfl | rfl | rfl <;> simp only [UInt8.toNat_ofNat', Nat.reducePow] at h <;> omega

theorem ascii_mem {s : Str} {b : UInt8} {c : Char} (h : b.toNat < 128) (hc : c.toNat = b.toNat) (hb : b ∈ strBytes s) : c ∈ s := by
  unfold strBytes at hb
  rw [List.mem_flatMap] at hb
  obtain ⟨d, hd, hb⟩ := hb
  have : c = d := by
    have := (ascii_byte hb h).trans hc.symm
    exact (Char.toNat_inj.1 this).symm
  rw [this]
  exact hd

theorem splitPath_ne (l : Bytes) : splitPath l ≠ [] := by
  cases l with
  | nil => simp [splitPath]
  | cons c l =>
    unfold splitPath
    split
    · simp
    · split <;> simp

theorem splitPath_plain : ∀ {l : Bytes}, (47 : UInt8) ∉ l → splitPath l = [l]
  | [], _ => rfl
  | c :: l, h => by
    simp only [List.mem_cons, not_or] at h
    unfold splitPath
    rw [if_neg (Ne.symm h.1), splitPath_plain h.2]

theorem splitPath_cons : ∀ {l r : Bytes}, (47 : UInt8) ∉ l → splitPath (l ++ 47 :: r) = l :: splitPath r
  | [], r, _ => by simp [splitPath]
  | c :: l, r, h => by
    simp only [List.mem_cons, not_or] at h
    rw [List.cons_append, splitPath, if_neg (Ne.symm h.1), splitPath_cons h.2]

theorem name_slash {n : Str} (h : NameOk n) : (47 : UInt8) ∉ strBytes n := fun hb => h.slash (ascii_mem (by decide) rfl hb)

theorem splitPath_path : ∀ {p : List Str}, p ≠ [] → (∀ n ∈ p, NameOk n) → splitPath (strBytes (pathText p)) = p.map strBytes
  | [], h, _ => absurd rfl h
  | [n], _, h => by simp [pathText, splitPath_plain (name_slash (h n (by simp)))]
  | n :: m :: l, _, h => by
    have e : strBytes (pathText (n :: m :: l)) = strBytes n ++ 47 :: strBytes (pathText (m :: l)) := by
      rw [show pathText (n :: m :: l) = n ++ '/' :: pathText (m :: l) from rfl, strBytes_append]
      rfl
    rw [e, splitPath_cons (name_slash (h n (by simp))), splitPath_path (by simp) (fun x hx => h x (by simp [hx]))]
    rfl

theorem strBytes_ne {n : Str} (h : n ≠ []) : strBytes n ≠ [] := fun e => h (strBytes_inj (e.trans rfl))

theorem pathText_zero : ∀ {p : List Str}, (∀ n ∈ p, NameOk n) → '\x00' ∉ pathText p
  | [], _ => by simp [pathText]
  | [n], h => (h n (by simp)).zero
  | n :: m :: l, h => by
    rw [show pathText (n :: m :: l) = n ++ '/' :: pathText (m :: l) from rfl]
    simp only [List.mem_append, List.mem_cons, not_or]
    exact ⟨(h n (by simp)).zero, by decide, pathText_zero fun x hx => h x (by simp [hx])⟩

theorem pathText_last : ∀ {p : List Str}, p ≠ [] → (∀ n ∈ p, NameOk n) → ∃ n l, NameOk n ∧ strBytes (pathText p) = l ++ strBytes n
  | [], h, _ => absurd rfl h
  | [n], _, h => ⟨n, [], h n (by simp), by simp [pathText]⟩
  | n :: m :: l, _, h => by
    obtain ⟨k, r, hk, e⟩ := pathText_last (p := m :: l) (by simp) (fun x hx => h x (by simp [hx]))
    refine ⟨k, strBytes n ++ strBytes ['/'] ++ r, hk, ?_⟩
    rw [show pathText (n :: m :: l) = n ++ (['/'] ++ pathText (m :: l)) from rfl, strBytes_append, strBytes_append, e]
    simp [List.append_assoc]

theorem placeOf_header {path : List Str} {c x : Bytes} (hp : path ≠ []) (hn : ∀ n ∈ path, NameOk n) (hx : header path c.length = some x) (hs : c.length < 8 ^ 11) :
    placeOf (x, c) = some (some (path.map strBytes, c)) := by
  obtain ⟨-, -, -, -, f5, f6⟩ := header_facts hx hs
  have hz : ∀ b ∈ strBytes (pathText path), (b != 0) = true := fun b hb => by
    simp only [bne_iff_ne, ne_eq]
    rintro rfl
    exact pathText_zero hn (ascii_mem (by decide) rfl hb)
  have hname : (x.take 100).takeWhile (· != 0) = strBytes (pathText path) := by
    rw [f6]
    cases hk : 100 - (strBytes (pathText path)).length with
    | zero =>
      simp only [List.replicate_zero, List.append_nil]
      generalize strBytes (pathText path) = l at hz
      clear hk f6
      induction l with
      | nil => rfl
      | cons a l ih => rw [List.takeWhile_cons_of_pos (p := fun x => x != 0) (hz a (by simp)), ih fun b hb => hz b (by simp [hb])]
    | succ k => exact takeWhile_stop hz rfl
  have hlast : (strBytes (pathText path)).getLast? ≠ some 47 := by
    obtain ⟨n, l, hk, e⟩ := pathText_last hp hn
    rw [e, List.getLast?_append_of_ne_nil _ (strBytes_ne hk.some)]
    intro h
    exact name_slash hk (List.mem_of_getLast? h)
  have hparts : (splitPath (strBytes (pathText path))).filter (fun c => !c.isEmpty && c != [46]) = path.map strBytes := by
    rw [splitPath_path hp hn, List.filter_eq_self]
    intro b hb
    obtain ⟨n, hm, rfl⟩ := List.mem_map.1 hb
    have h1 := strBytes_ne (hn n hm).some
    have h2 : strBytes n ≠ [46] := fun e => (hn n hm).dot (strBytes_inj (e.trans rfl))
    simp [h1, h2]
  have hdots : [46, 46] ∉ path.map strBytes := by
    intro h
    obtain ⟨n, hm, e⟩ := List.mem_map.1 h
    exact (hn n hm).dots (strBytes_inj (e.trans rfl))
  unfold placeOf
  simp only [hname, hparts, f5]
  rw [if_neg (by simp [hlast]), if_neg (by simp only [hdots, List.map_eq_nil_iff, hp, or_self, not_false_eq_true])]

/-! ## the whole archive -/

/-- The files that get into the archive. -/
def kept (pre : List Str) : Tree → List (List Str × Bytes)
  | .nil => []
  | .file n c r => if 100 < (strBytes (pathText (pre ++ [n]))).length then [] else (pre ++ [n], c) :: kept pre r
  | .dir n s r => kept (pre ++ [n]) s ++ kept pre r

/-- Their headers with their bytes. -/
def blocks (l : List (List Str × Bytes)) : List (Bytes × Bytes) := l.map fun e => ((header e.1 e.2.length).getD [], e.2)

theorem readTar_dir : ∀ {t : Tree} {pre : List Str} {r : Bytes}, t.WF → readTar ((tarDir pre t).1 ++ r) = (readTar r).map (fun l => blocks (kept pre t) ++ l)
  | .nil, pre, r, _ => by simp [tarDir, kept, blocks]
  | .file n c t, pre, r, h => by
    cases h with
    | file hn hd hs ht =>
      by_cases hl : Long (pre ++ [n])
      · have : kept pre (.file n c t) = [] := if_pos hl
        simp [tarDir, header_none hl, this, blocks]
      · obtain ⟨x, hx, -⟩ := header_some (size := c.length) hl
        have : kept pre (.file n c t) = (pre ++ [n], c) :: kept pre t := if_neg hl
        simp only [tarDir, hx, this, blocks, List.map_cons, Option.getD_some]
        rw [List.append_assoc, readTar_file hx hs, readTar_dir ht, Option.map_map]
        rfl
  | .dir n s t, pre, r, h => by
    cases h with
    | dir hn hd hs ht =>
      simp only [tarDir, kept]
      rw [List.append_assoc, readTar_dir hs, readTar_dir ht, Option.map_map]
      simp [blocks, Function.comp_def]

theorem Has_ne {t : Tree} {p : List Str} {c : Bytes} (h : t.Has p c) : p ≠ [] := by
  induction h with
  | here => simp
  | file _ ih => exact ih
  | sub _ _ => simp
  | dir _ ih => exact ih

theorem Has_names {t : Tree} {p : List Str} {c : Bytes} (w : t.WF) (h : t.Has p c) : (∀ n ∈ p, NameOk n) ∧ c.length < 8 ^ 11 := by
  induction h with
  | here => cases w with | file a b c d => exact ⟨fun n hn => by rw [List.mem_singleton.1 hn]; exact a, c⟩
  | file _ ih => cases w with | file a b c d => exact ih d
  | sub _ ih =>
    cases w with
    | dir a b c d =>
      refine ⟨fun n hn => ?_, (ih c).2⟩
      rcases List.mem_cons.1 hn with rfl | hn
      · exact a
      · exact (ih c).1 n hn
  | dir _ ih => cases w with | dir a b c d => exact ih d

theorem kept_has : ∀ {t : Tree} {pre : List Str} {e : List Str × Bytes}, e ∈ kept pre t → ∃ p, e.1 = pre ++ p ∧ t.Has p e.2 ∧ ¬ Long e.1
  | .nil, _, _, h => by cases h
  | .file n c t, pre, e, h => by
    unfold kept at h
    split at h
    · cases h
    · rename_i hl
      rcases List.mem_cons.1 h with rfl | h
      · exact ⟨[n], rfl, .here, hl⟩
      · obtain ⟨p, e1, e2, e3⟩ := kept_has h
        exact ⟨p, e1, .file e2, e3⟩
  | .dir n s t, pre, e, h => by
    unfold kept at h
    rcases List.mem_append.1 h with h | h
    · obtain ⟨p, e1, e2, e3⟩ := kept_has h
      exact ⟨n :: p, by rw [e1]; simp, .sub e2, e3⟩
    · obtain ⟨p, e1, e2, e3⟩ := kept_has h
      exact ⟨p, e1, .dir e2, e3⟩

theorem kept_missing {t : Tree} {p : List Str} {c : Bytes} (h : t.Has p c) : ∀ pre, (pre ++ p, c) ∈ kept pre t ∨
    ∃ q r m d, p = q ++ r ∧ r ≠ [] ∧ t.Has (q ++ [m]) d ∧ Long (pre ++ q ++ [m]) := by
  induction h with
  | @here n c r =>
    intro pre
    unfold kept
    split
    · rename_i hl
      exact .inr ⟨[], [n], n, c, rfl, by simp, .here, by simpa [Long] using hl⟩
    · exact .inl (by simp)
  | @file n c r p d h ih =>
    intro pre
    by_cases hl : Long (pre ++ [n])
    · exact .inr ⟨[], p, n, c, rfl, Has_ne h, .here, by simpa [Long] using hl⟩
    · rcases ih pre with ih | ⟨q, r', m, d', e1, e0, e2, e3⟩
      · left
        rw [show kept pre (.file n c r) = (pre ++ [n], c) :: kept pre r from if_neg hl]
        exact List.mem_cons_of_mem _ ih
      · exact .inr ⟨q, r', m, d', e1, e0, .file e2, e3⟩
  | @sub n s r p d h ih =>
    intro pre
    rcases ih (pre ++ [n]) with ih | ⟨q, r', m, d', e1, e0, e2, e3⟩
    · left
      unfold kept
      exact List.mem_append_left _ (by simpa using ih)
    · exact .inr ⟨n :: q, r', m, d', by rw [e1]; rfl, e0, .sub e2, by simpa using e3⟩
  | @dir n s r p d h ih =>
    intro pre
    rcases ih pre with ih | ⟨q, r', m, d', e1, e0, e2, e3⟩
    · left
      unfold kept
      exact List.mem_append_right _ ih
    · exact .inr ⟨q, r', m, d', e1, e0, .dir e2, e3⟩

/-- The result of `tar_dir` depends on the files of this directory only. -/
theorem tarDir_ok : ∀ {t : Tree} {pre : List Str}, (tarDir pre t).2 = false ↔ ∃ n c, t.Has [n] c ∧ Long (pre ++ [n])
  | .nil, pre => by
    simp only [tarDir, Bool.true_eq_false, false_iff]
    rintro ⟨n, c, h, -⟩
    cases h
  | .file n c t, pre => by
    by_cases hl : Long (pre ++ [n])
    · simp only [tarDir, header_none hl, true_iff]
      exact ⟨n, c, .here, hl⟩
    · obtain ⟨x, hx, -⟩ := header_some (size := c.length) hl
      simp only [tarDir, hx]
      rw [tarDir_ok]
      constructor
      · rintro ⟨m, d, h1, h2⟩
        exact ⟨m, d, .file h1, h2⟩
      · rintro ⟨m, d, h1, h2⟩
        cases h1 with
        | here => exact absurd h2 hl
        | file h1 => exact ⟨m, d, h1, h2⟩
  | .dir n s t, pre => by
    simp only [tarDir]
    rw [tarDir_ok]
    constructor
    · rintro ⟨m, d, h1, h2⟩
      exact ⟨m, d, .dir h1, h2⟩
    · rintro ⟨m, d, h1, h2⟩
      cases h1 with
      | sub h1 => exact absurd rfl (Has_ne h1)
      | dir h1 => exact ⟨m, d, h1, h2⟩

theorem Has_named {t : Tree} {p : List Str} {c : Bytes} (h : t.Has p c) : ∃ n l, p = n :: l ∧ t.Named n := by
  induction h with
  | here => exact ⟨_, _, rfl, .fileHere⟩
  | file _ ih => obtain ⟨n, l, e, hn⟩ := ih; exact ⟨n, l, e, .file hn⟩
  | sub _ _ => exact ⟨_, _, rfl, .dirHere⟩
  | dir _ ih => obtain ⟨n, l, e, hn⟩ := ih; exact ⟨n, l, e, .dir hn⟩

theorem prefix_head {pre p q : List Str} {n m : Str} (h : pre ++ n :: p <+: pre ++ m :: q) : n = m := by
  rw [List.prefix_append_right_inj] at h
  exact (List.cons_prefix_cons.1 h).1

/-- No file of the archive is where another one needs a directory, and none is there twice. -/
theorem kept_apart : ∀ {t : Tree} {pre : List Str}, t.WF → (kept pre t).Pairwise fun e e' => ¬ e.1 <+: e'.1 ∧ ¬ e'.1 <+: e.1
  | .nil, _, _ => .nil
  | .file n c t, pre, h => by
    cases h with
    | file hn hd hs ht =>
      unfold kept
      split
      · exact .nil
      · refine List.pairwise_cons.2 ⟨fun e he => ?_, kept_apart ht⟩
        obtain ⟨p, e1, e2, -⟩ := kept_has he
        obtain ⟨m, l, rfl, hm⟩ := Has_named e2
        rw [e1]
        exact ⟨fun h => hd (prefix_head h ▸ hm), fun h => hd (prefix_head h ▸ hm)⟩
  | .dir n s t, pre, h => by
    cases h with
    | dir hn hd hs ht =>
      unfold kept
      refine List.pairwise_append.2 ⟨kept_apart hs, kept_apart ht, fun e he e' he' => ?_⟩
      obtain ⟨p, e1, e2, -⟩ := kept_has he
      obtain ⟨p', e1', e2', -⟩ := kept_has he'
      obtain ⟨m, l, rfl, hm⟩ := Has_named e2'
      rw [e1, e1', List.append_assoc, List.singleton_append]
      exact ⟨fun h => hd (prefix_head h ▸ hm), fun h => hd (prefix_head h ▸ hm)⟩

theorem mapM_blocks : ∀ {l : List (List Str × Bytes)}, (∀ e ∈ l, e.1 ≠ [] ∧ (∀ n ∈ e.1, NameOk n) ∧ e.2.length < 8 ^ 11 ∧ ¬ Long e.1) →
    (blocks l).mapM placeOf = some (l.map fun e => some (e.1.map strBytes, e.2))
  | [], _ => rfl
  | e :: l, h => by
    obtain ⟨h1, h2, h3, h4⟩ := h e (by simp)
    obtain ⟨x, hx, -⟩ := header_some (size := e.2.length) h4
    have ih := mapM_blocks (l := l) fun a ha => h a (by simp [ha])
    have : blocks (e :: l) = (x, e.2) :: blocks l := by simp [blocks, hx]
    rw [this, List.mapM_cons, placeOf_header h1 h2 hx h3, ih]
    rfl

/-- What is unpacked from the archive of a directory. -/
theorem unpack_kept {t : Tree} {b : Bytes} (w : t.WF) (h : tarFrontend t = some b) : unpackTar b = some ((kept [] t).map fun e => (e.1.map strBytes, e.2)) := by
  unfold tarFrontend at h
  simp only at h
  split at h
  · cases h
    unfold unpackTar
    rw [readTar_dir w, readTar_end]
    simp only [Option.map_some, List.append_nil, Option.bind_eq_bind, Option.bind_some, Option.pure_def]
    rw [mapM_blocks]
    · simp only [Option.bind_some, Option.some.injEq]
      induction kept [] t with
      | nil => rfl
      | cons a l ih => simp
    · intro e he
      obtain ⟨p, e1, e2, e3⟩ := kept_has he
      rw [List.nil_append] at e1
      rw [e1] at e3 ⊢
      obtain ⟨n1, n2⟩ := Has_names w e2
      exact ⟨Has_ne e2, n1, n2, e3⟩
  · cases h

end Archive
end Art
