import Verif.Model.Hash
import Verif.Lemmas.Name
import Mathlib.Tactic.IntervalCases

/-!
# Lemmas about the bytes that are hashed and about base64
-/

namespace Art

theorem utf8_no_ff (c : Char) : (0xff : UInt8) ∉ String.utf8EncodeChar c := by
  unfold String.utf8EncodeChar
  simp only
  generalize c.val.toNat = v
  split
  · rename_i h1
    simp only [List.mem_singleton, ← UInt8.toNat_inj]
    intro e
    simp at e
    omega
  · split
    · simp only [List.mem_cons, List.not_mem_nil, or_false, ← UInt8.toNat_inj]
      simp
      omega
    · split
      · simp only [List.mem_cons, List.not_mem_nil, or_false, ← UInt8.toNat_inj]
        simp
        omega
      · simp only [List.mem_cons, List.not_mem_nil, or_false, ← UInt8.toNat_inj]
        simp
        omega

theorem strBytes_no_ff (s : Str) : (0xff : UInt8) ∉ strBytes s := by
  unfold strBytes
  rw [List.mem_flatMap]
  rintro ⟨c, _, h⟩
  exact utf8_no_ff c h

theorem strBytes_append (s t : Str) : strBytes (s ++ t) = strBytes s ++ strBytes t := by
  simp [strBytes]

theorem strBytes_inj {s t : Str} (h : strBytes s = strBytes t) : s = t := by
  have h1 : List.utf8Encode s = List.utf8Encode t := by
    unfold List.utf8Encode
    unfold strBytes at h
    rw [h]
  have h2 := List.utf8Decode?_utf8Encode (l := s)
  rw [h1, List.utf8Decode?_utf8Encode] at h2
  simpa using h2.symm

/-- Two texts that end at the first `0xff`. -/
theorem split_ff {x y r r' : List UInt8} (hx : (0xff : UInt8) ∉ x) (hy : (0xff : UInt8) ∉ y)
    (h : x ++ 0xff :: r = y ++ 0xff :: r') : x = y ∧ r = r' := by
  induction x generalizing y with
  | nil =>
    cases y with
    | nil => simpa using h
    | cons b y => simp at h; exact absurd (by simp [← h.1]) hy
  | cons a x ih =>
    cases y with
    | nil => simp at h; exact absurd (by simp [h.1]) hx
    | cons b y =>
      simp only [List.cons_append, List.cons.injEq] at h
      obtain ⟨e, f⟩ := ih (fun m => hx (List.mem_cons_of_mem _ m)) (fun m => hy (List.mem_cons_of_mem _ m)) h.2
      exact ⟨by rw [h.1, e], f⟩

theorem strStream_append {s t : Str} {r r' : List UInt8} (h : strStream s ++ r = strStream t ++ r') : s = t ∧ r = r' := by
  unfold strStream at h
  rw [List.append_assoc, List.append_assoc, List.singleton_append, List.singleton_append] at h
  obtain ⟨e, f⟩ := split_ff (strBytes_no_ff s) (strBytes_no_ff t) h
  exact ⟨strBytes_inj e, f⟩

@[simp] theorem u64_length (n : Nat) : (u64 n).length = 8 := by simp [u64]

theorem u64_inj {n m : Nat} (hn : n < 2 ^ 64) (hm : m < 2 ^ 64) (h : u64 n = u64 m) : n = m := by
  simp only [u64, List.range, List.range.loop, List.map, List.cons.injEq, ← UInt8.toNat_inj, UInt8.toNat_ofNat', Nat.reducePow] at h
  omega

theorem u64_append {n m : Nat} {r r' : List UInt8} (hn : n < 2 ^ 64) (hm : m < 2 ^ 64) (h : u64 n ++ r = u64 m ++ r') :
    n = m ∧ r = r' := by
  obtain ⟨e, f⟩ := List.append_inj h (by simp)
  exact ⟨u64_inj hn hm e, f⟩

theorem Ty.disc_lt (t : Ty) : t.disc < 2 ^ 64 := by cases t <;> decide

theorem Ty.disc_inj {s t : Ty} (h : s.disc = t.disc) : s = t := by cases s <;> cases t <;> simp_all [Ty.disc]

theorem Name.stream_append {m n : Name} {r r' : List UInt8} (h : m.stream ++ r = n.stream ++ r') : m.keyStr = n.keyStr ∧ r = r' := by
  unfold Name.stream at h
  rw [List.append_assoc, List.append_assoc] at h
  exact strStream_append (u64_append m.ty.disc_lt n.ty.disc_lt h).2

theorem small_no_ff {n : Nat} (h : n < 255) : (0xff : UInt8) ∉ u64 n := by
  interval_cases n <;> decide

/-! ## paths -/

/-- The bytes of the components of a path end where something starts that is not a component. -/
theorem comps_append : ∀ {l m : List Str} {n n' : Nat} {r r' : List UInt8}, (∀ c ∈ l, (strBytes c).length < 2 ^ 64) →
    (∀ c ∈ m, (strBytes c).length < 2 ^ 64) → n < 3 → n' < 3 →
    l.flatMap compStream ++ (u64 n ++ r) = m.flatMap compStream ++ (u64 n' ++ r') → l = m ∧ u64 n ++ r = u64 n' ++ r' := by
  intro l
  induction l with
  | nil =>
    intro m n n' r r' _ _ hn hn' h
    cases m with
    | nil => exact ⟨rfl, h⟩
    | cons c m =>
      exfalso
      simp only [List.flatMap_nil, List.nil_append, List.flatMap_cons, List.append_assoc, compStream] at h
      split at h
      · have := (u64_append (by omega) (by omega) h).1
        omega
      · simp only [List.append_assoc] at h
        have := (u64_append (by omega) (by omega) h).1
        omega
  | cons a l ih =>
    intro m n n' r r' hl hm hn hn' h
    cases m with
    | nil =>
      exfalso
      simp only [List.flatMap_nil, List.nil_append, List.flatMap_cons, List.append_assoc, compStream] at h
      split at h
      · have := (u64_append (by omega) (by omega) h).1
        omega
      · simp only [List.append_assoc] at h
        have := (u64_append (by omega) (by omega) h).1
        omega
    | cons b m =>
      simp only [List.flatMap_cons, List.append_assoc] at h
      have key : a = b ∧ l.flatMap compStream ++ (u64 n ++ r) = m.flatMap compStream ++ (u64 n' ++ r') := by
        unfold compStream at h
        split at h <;> split at h
        · rename_i h1 h2
          exact ⟨h1.trans h2.symm, (u64_append (by omega) (by omega) h).2⟩
        · simp only [List.append_assoc] at h
          have := (u64_append (by omega) (by omega) h).1
          omega
        · simp only [List.append_assoc] at h
          have := (u64_append (by omega) (by omega) h).1
          omega
        · simp only [List.append_assoc] at h
          have h1 := (u64_append (by omega) (by omega) h).2
          obtain ⟨h2, h3⟩ := u64_append (hl a (by simp)) (hm b (by simp)) h1
          obtain ⟨h4, h5⟩ := List.append_inj h3 h2
          exact ⟨strBytes_inj h4, h5⟩
      obtain ⟨e, f⟩ := ih (fun c hc => hl c (List.mem_cons_of_mem _ hc)) (fun c hc => hm c (List.mem_cons_of_mem _ hc)) hn hn' key.2
      exact ⟨by rw [key.1, e], f⟩

/-! ## the part after the path -/

/-- What is hashed after the path. -/
def restStream (ps : List Name) (d : Option Str) (t : Str) : List UInt8 :=
  ps.flatMap Name.stream ++ doneStream d ++ strStream t

theorem restStream_cons (p : Name) (ps : List Name) (d : Option Str) (t : Str) :
    restStream (p :: ps) d t = p.stream ++ restStream ps d t := by simp [restStream]

theorem restStream_nil (d : Option Str) (t : Str) : restStream [] d t = doneStream d ++ strStream t := by simp [restStream]

/-- It begins with a number below three. -/
theorem restStream_head (ps : List Name) (d : Option Str) (t : Str) : ∃ n r, n < 3 ∧ restStream ps d t = u64 n ++ r := by
  cases ps with
  | nil =>
    cases d with
    | none => exact ⟨0, strStream t, by omega, by rw [restStream_nil, doneStream]⟩
    | some d => exact ⟨1, strStream d ++ strStream t, by omega, by rw [restStream_nil, doneStream, List.append_assoc]⟩
  | cons p ps =>
    refine ⟨p.ty.disc, strStream p.keyStr ++ restStream ps d t, ?_, by rw [restStream_cons, Name.stream, List.append_assoc]⟩
    cases p.ty <;> decide

theorem restStream_ne (ps : List Name) (d : Option Str) (t : Str) : restStream ps d t ≠ [] := by
  obtain ⟨n, r, _, e⟩ := restStream_head ps d t
  rw [e]
  intro h
  have := congrArg List.length h
  simp at this

theorem nuls_bytes : strBytes (List.replicate 8 (Char.ofNat 0)) = u64 0 := by decide

/-- A list ended by its only `0xff`. -/
theorem ends_ff {x y r : List UInt8} (hx : (0xff : UInt8) ∉ x) (hy : (0xff : UInt8) ∉ y) (h : x ++ [0xff] = y ++ 0xff :: r) :
    x = y ∧ r = [] := by
  obtain ⟨e, f⟩ := split_ff hx hy h
  exact ⟨e, f.symm⟩

/-- No names on the left, at least one on the right. -/
theorem rest_nil_cons {q : Name} {qs : List Name} {d d' : Option Str} {t t' : Str}
    (h : restStream [] d t = restStream (q :: qs) d' t') :
    qs = [] ∧ q.ty = .SPC ∧ d = some q.keyStr ∧ d' = none ∧ t = List.replicate 8 (Char.ofNat 0) ++ t' := by
  rw [restStream_nil, restStream_cons, Name.stream, List.append_assoc] at h
  cases d with
  | none =>
    exfalso
    rw [doneStream] at h
    have h1 := (u64_append (by omega) q.ty.disc_lt h).2
    rw [← List.append_nil (strStream t)] at h1
    exact restStream_ne _ _ _ (strStream_append h1).2.symm
  | some d =>
    rw [doneStream, List.append_assoc] at h
    obtain ⟨h0, h1⟩ := u64_append (by omega) q.ty.disc_lt h
    obtain ⟨h2, h3⟩ := strStream_append h1
    cases qs with
    | cons p ps =>
      exfalso
      rw [restStream_cons, Name.stream, List.append_assoc, strStream, strStream, List.append_assoc, ← List.append_assoc] at h3
      have hp : p.ty.disc < 255 := by cases p.ty <;> decide
      have h4 := (ends_ff (strBytes_no_ff t) (y := u64 p.ty.disc ++ strBytes p.keyStr) (by
        rw [List.mem_append]
        rintro (h | h)
        · exact small_no_ff hp h
        · exact strBytes_no_ff _ h) h3).2
      exact restStream_ne _ _ _ h4
    | nil =>
      rw [restStream_nil] at h3
      cases d' with
      | some d' =>
        exfalso
        rw [doneStream, strStream, strStream, List.append_assoc, List.append_assoc, ← List.append_assoc] at h3
        have h4 := (ends_ff (strBytes_no_ff t) (y := u64 1 ++ strBytes d') (by
          rw [List.mem_append]
          rintro (h | h)
          · exact small_no_ff (by omega) h
          · exact strBytes_no_ff _ h) h3).2
        have := congrArg List.length h4
        simp [strStream] at this
      | none =>
        refine ⟨rfl, Ty.disc_inj h0.symm, by rw [h2], rfl, ?_⟩
        rw [doneStream, strStream, strStream, ← nuls_bytes, ← List.append_assoc, ← strBytes_append] at h3
        exact strBytes_inj (List.append_cancel_right h3)

theorem rest_inj : ∀ {ps qs : List Name} {d d' : Option Str} {t t' : Str}, restStream ps d t = restStream qs d' t' →
    (ps.map Name.keyStr = qs.map Name.keyStr ∧ d = d' ∧ t = t') ∨
    (∃ q : Name, qs.map Name.keyStr = ps.map Name.keyStr ++ [q.keyStr] ∧ q.ty = .SPC ∧ d = some q.keyStr ∧ d' = none ∧
      t = List.replicate 8 (Char.ofNat 0) ++ t') ∨
    (∃ q : Name, ps.map Name.keyStr = qs.map Name.keyStr ++ [q.keyStr] ∧ q.ty = .SPC ∧ d' = some q.keyStr ∧ d = none ∧
      t' = List.replicate 8 (Char.ofNat 0) ++ t) := by
  intro ps
  induction ps with
  | nil =>
    intro qs d d' t t' h
    cases qs with
    | cons q qs =>
      obtain ⟨rfl, b, c, e, f⟩ := rest_nil_cons h
      exact Or.inr (Or.inl ⟨q, by simp, b, c, e, f⟩)
    | nil =>
      left
      refine ⟨rfl, ?_⟩
      rw [restStream_nil, restStream_nil] at h
      cases d <;> cases d' <;> simp only [doneStream, List.append_assoc] at h
      · have h1 := (u64_append (by omega) (by omega) h).2
        rw [← List.append_nil (strStream t), ← List.append_nil (strStream t')] at h1
        exact ⟨rfl, (strStream_append h1).1⟩
      · have := (u64_append (by omega) (by omega) h).1
        omega
      · have := (u64_append (by omega) (by omega) h).1
        omega
      · obtain ⟨e, h1⟩ := strStream_append (u64_append (by omega) (by omega) h).2
        rw [← List.append_nil (strStream t), ← List.append_nil (strStream t')] at h1
        exact ⟨by rw [e], (strStream_append h1).1⟩
  | cons p ps ih =>
    intro qs d d' t t' h
    cases qs with
    | nil =>
      obtain ⟨rfl, b, c, e, f⟩ := rest_nil_cons h.symm
      exact Or.inr (Or.inr ⟨p, by simp, b, c, e, f⟩)
    | cons q qs =>
      rw [restStream_cons, restStream_cons] at h
      obtain ⟨e, h1⟩ := Name.stream_append h
      rcases ih h1 with ⟨a, b, c⟩ | ⟨r, a, b⟩ | ⟨r, a, b⟩
      · exact Or.inl ⟨by simp [e, a], b, c⟩
      · exact Or.inr (Or.inl ⟨r, by simp [e, a], b⟩)
      · exact Or.inr (Or.inr ⟨r, by simp [e, a], b⟩)

theorem names_stream {ps qs : List Name} (h : ps.map Name.keyStr = qs.map Name.keyStr) :
    ps.flatMap Name.stream = qs.flatMap Name.stream := by
  induction ps generalizing qs with
  | nil => cases qs <;> simp_all
  | cons p ps ih =>
    cases qs with
    | nil => simp at h
    | cons q qs =>
      simp only [List.map_cons, List.cons.injEq] at h
      simp only [List.flatMap_cons, ih h.2, Name.stream, h.1, Name.ty_of_key h.1]

/-! ## base64 -/

theorem b64Val_char {n : Nat} (h : n < 64) : b64Val (b64Char n) = some n := by
  interval_cases n <;> decide

theorem b64Val_lt {c : Char} {n : Nat} (h : b64Val c = some n) : n < 64 ∧ b64Char n = c := by
  unfold b64Val at h
  rw [List.findIdx?_eq_some_iff_getElem] at h
  obtain ⟨h1, h2, _⟩ := h
  have : b64Alphabet.length = 64 := rfl
  refine ⟨by omega, ?_⟩
  unfold b64Char
  rw [List.getD_eq_getElem?_getD, List.getElem?_eq_getElem h1]
  simpa using h2

theorem b64Char_mem {n : Nat} (h : n < 64) : b64Char n ∈ b64Alphabet := by
  interval_cases n <;> decide

theorem b64_roundtrip (strict : Bool) : ∀ l : List UInt8, b64Decode strict (b64Encode l) = some l
  | a :: b :: c :: r => by
    have ha := a.toNat_lt
    have hb := b.toNat_lt
    have hc := c.toNat_lt
    simp only [b64Encode, b64Decode]
    rw [b64Val_char (by omega), b64Val_char (by omega), b64Val_char (by omega), b64Val_char (by omega), b64_roundtrip strict r]
    simp only [Option.pure_def, Option.bind_eq_bind, Option.bind_some, Option.some.injEq, List.cons.injEq, ← UInt8.toNat_inj,
      UInt8.toNat_ofNat', and_true]
    omega
  | [a, b] => by
    have ha := a.toNat_lt
    have hb := b.toNat_lt
    simp only [b64Encode, b64Decode]
    rw [b64Val_char (by omega), b64Val_char (by omega), b64Val_char (by omega)]
    have h0 : (strict && b.toNat % 16 * 4 % 4 != 0) = false := by simp
    simp only [Option.pure_def, Option.bind_eq_bind, Option.bind_some]
    rw [h0]
    simp only [Bool.false_eq_true, if_false, Option.some.injEq, List.cons.injEq, ← UInt8.toNat_inj, UInt8.toNat_ofNat', and_true]
    omega
  | [a] => by
    have ha := a.toNat_lt
    simp only [b64Encode, b64Decode]
    rw [b64Val_char (by omega), b64Val_char (by omega)]
    have h0 : (strict && a.toNat % 4 * 16 % 16 != 0) = false := by simp
    simp only [Option.pure_def, Option.bind_eq_bind, Option.bind_some]
    rw [h0]
    simp only [Bool.false_eq_true, if_false, Option.some.injEq, List.cons.injEq, ← UInt8.toNat_inj, UInt8.toNat_ofNat', and_true]
    omega
  | [] => rfl

theorem b64_alphabet : ∀ (l : List UInt8), ∀ c ∈ b64Encode l, c ∈ b64Alphabet
  | a :: b :: c :: r => by
    have ha := a.toNat_lt
    have hb := b.toNat_lt
    have hc := c.toNat_lt
    intro x hx
    simp only [b64Encode, List.mem_cons] at hx
    rcases hx with rfl | rfl | rfl | rfl | hx
    · exact b64Char_mem (by omega)
    · exact b64Char_mem (by omega)
    · exact b64Char_mem (by omega)
    · exact b64Char_mem (by omega)
    · exact b64_alphabet r x hx
  | [a, b] => by
    have ha := a.toNat_lt
    have hb := b.toNat_lt
    intro x hx
    simp only [b64Encode, List.mem_cons, List.not_mem_nil, or_false] at hx
    rcases hx with rfl | rfl | rfl
    · exact b64Char_mem (by omega)
    · exact b64Char_mem (by omega)
    · exact b64Char_mem (by omega)
  | [a] => by
    have ha := a.toNat_lt
    intro x hx
    simp only [b64Encode, List.mem_cons, List.not_mem_nil, or_false] at hx
    rcases hx with rfl | rfl
    · exact b64Char_mem (by omega)
    · exact b64Char_mem (by omega)
  | [] => by simp [b64Encode]

theorem b64_length : ∀ l : List UInt8, (b64Encode l).length = (l.length * 4 + 2) / 3
  | a :: b :: c :: r => by
    simp only [b64Encode, List.length_cons, b64_length r]
    omega
  | [a, b] => by simp [b64Encode]
  | [a] => by simp [b64Encode]
  | [] => by simp [b64Encode]

theorem b64Val_some : ∀ c ∈ b64Alphabet, ∃ n, b64Val c = some n := by
  intro c hc
  have h : ∀ c ∈ b64Alphabet, (b64Val c).isSome = true := by decide
  exact Option.isSome_iff_exists.1 (h c hc)

/-- Decoding without left over bits succeeds on words over the alphabet, except for the lengths `4k+1`. -/
theorem b64Decode_ok : ∀ {s : Str}, (∀ c ∈ s, c ∈ b64Alphabet) → s.length % 4 ≠ 1 →
    ∃ l, b64Decode false s = some l ∧ l.length = s.length * 3 / 4
  | w :: x :: y :: z :: r, h, hl => by
    have hv := b64Val_some
    obtain ⟨a, ha⟩ := hv w (h w (by simp))
    obtain ⟨b, hb⟩ := hv x (h x (by simp))
    obtain ⟨c, hc⟩ := hv y (h y (by simp))
    obtain ⟨d, hd⟩ := hv z (h z (by simp))
    obtain ⟨l, e1, e2⟩ := b64Decode_ok (s := r) (fun c hc => h c (by simp [hc])) (by simp only [List.length_cons] at hl; omega)
    refine ⟨_, by simp only [b64Decode, ha, hb, hc, hd, e1, Option.pure_def, Option.bind_eq_bind, Option.bind_some]; rfl, ?_⟩
    simp only [List.length_cons, e2]
    omega
  | [w, x, y], h, _ => by
    have hv := b64Val_some
    obtain ⟨a, ha⟩ := hv w (h w (by simp))
    obtain ⟨b, hb⟩ := hv x (h x (by simp))
    obtain ⟨c, hc⟩ := hv y (h y (by simp))
    exact ⟨_, by simp [b64Decode, ha, hb, hc]; rfl, by simp⟩
  | [w, x], h, _ => by
    have hv := b64Val_some
    obtain ⟨a, ha⟩ := hv w (h w (by simp))
    obtain ⟨b, hb⟩ := hv x (h x (by simp))
    exact ⟨_, by simp [b64Decode, ha, hb]; rfl, by simp⟩
  | [w], _, h => by simp at h
  | [], _, _ => ⟨[], rfl, rfl⟩

end Art
