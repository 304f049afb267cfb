import Verif.Spec.Http
import Verif.Lemmas.Hash

/-!
# Lemmas about bytes as text and about lists with commas
-/

namespace Art.Http

theorem fromUtf8_iff {b : List UInt8} {s : Str} : fromUtf8 b = some s ↔ b = strBytes s := by
  have enc : ∀ l : Str, l.utf8Encode = (strBytes l).toByteArray := fun _ => rfl
  unfold fromUtf8
  constructor
  · intro h
    obtain ⟨a, h1, h2⟩ := Option.map_eq_some_iff.1 h
    have h3 : b.toByteArray.utf8Decode?.isSome = true := by rw [h1]; rfl
    have h4 := ByteArray.utf8Encode_get_utf8Decode? (b := b.toByteArray) (h := h3)
    simp only [h1, Option.get_some, h2, enc] at h4
    have h5 := congrArg (fun x => x.data.toList) h4
    simpa using h5.symm
  · rintro rfl
    rw [← enc, List.utf8Decode?_utf8Encode]
    rfl

/-- The words between commas, without blanks. -/
def cut : Str → List Str
  | [] => [[]]
  | c :: s =>
    if c = ',' then [] :: cut s
    else match cut s with
      | [] => [[c]]
      | x :: xs => (if c = ' ' then x else c :: x) :: xs

theorem cut_ne (s : Str) : cut s ≠ [] := by
  cases s with
  | nil => simp [cut]
  | cons c s =>
    simp only [cut]
    split
    · simp
    · split <;> simp

theorem cut_blank {l s : Str} (h : ∀ c ∈ l, c = ' ') : cut (l ++ s) = cut s := by
  induction l with
  | nil => rfl
  | cons c l ih =>
    have hc := h c (by simp)
    subst hc
    simp only [List.cons_append, cut, ih (fun c hc => h c (by simp [hc]))]
    have := cut_ne s
    revert this
    cases cut s <;> simp

theorem cut_word {m s : Str} (h : ∀ c ∈ m, c ≠ ',' ∧ c ≠ ' ') {x : Str} {xs : List Str} (hx : cut s = x :: xs) : cut (m ++ s) = (m ++ x) :: xs := by
  induction m with
  | nil => exact hx
  | cons c m ih =>
    have hc := h c (by simp)
    simp only [List.cons_append, cut, ih (fun c hc => h c (by simp [hc])), if_neg hc.1, if_neg hc.2]

theorem listed_cut {s : Str} {l : List Str} (h : Listed s l) : l = cut s := by
  induction h with
  | @one l m r h1 h2 h3 =>
    rw [List.append_assoc, cut_blank h1]
    have h4 : cut r = [[]] := by have := cut_blank (s := []) h2; rwa [List.append_nil] at this
    rw [cut_word h3 h4, List.append_nil]
  | @more l m r s ms h1 h2 h3 _ ih =>
    have h4 : cut (r ++ ',' :: s) = [] :: cut s := by rw [cut_blank h2]; simp [cut]
    have e : l ++ m ++ r ++ ',' :: s = l ++ (m ++ (r ++ ',' :: s)) := by simp
    rw [e, cut_blank h1, cut_word h3 h4, List.append_nil, ih]

theorem listed_methods : Listed c!"GET, POST, OPTIONS, PUT, PATCH, DELETE" [c!"GET", c!"POST", c!"OPTIONS", c!"PUT", c!"PATCH", c!"DELETE"] :=
  .more (l := []) (m := c!"GET") (r := []) (by decide) (by decide) (by decide) <|
  .more (l := c!" ") (m := c!"POST") (r := []) (by decide) (by decide) (by decide) <|
  .more (l := c!" ") (m := c!"OPTIONS") (r := []) (by decide) (by decide) (by decide) <|
  .more (l := c!" ") (m := c!"PUT") (r := []) (by decide) (by decide) (by decide) <|
  .more (l := c!" ") (m := c!"PATCH") (r := []) (by decide) (by decide) (by decide) <|
  .one (l := c!" ") (m := c!"DELETE") (r := []) (by decide) (by decide) (by decide)

theorem listed_headers : Listed c!"X-Requested-With,content-type" [c!"X-Requested-With", c!"content-type"] :=
  .more (l := []) (m := c!"X-Requested-With") (r := []) (by decide) (by decide) (by decide) <|
  .one (l := []) (m := c!"content-type") (r := []) (by decide) (by decide) (by decide)

theorem listed_one {s : Str} {l l' : List Str} (h : Listed s l) (h' : Listed s l') : l = l' := (listed_cut h).trans (listed_cut h').symm

/-- All that an answer with the headers of the program says about origins, verbs and headers. -/
theorem cors_says {status : Nat} {body : Str} {name value : Str} : HttpSays ⟨status, corsHeaders, body⟩ name value ↔
    (SameWord c!"access-control-allow-origin" name ∧ value = c!"*") ∨
    (SameWord c!"access-control-allow-methods" name ∧ value = c!"GET, POST, OPTIONS, PUT, PATCH, DELETE") ∨
    (SameWord c!"access-control-allow-headers" name ∧ value = c!"X-Requested-With,content-type") := by
  have e1 : (c!"Access-Control-Allow-Origin").map Char.toLower = (c!"access-control-allow-origin").map Char.toLower := by decide
  have e2 : (c!"Access-Control-Allow-Methods").map Char.toLower = (c!"access-control-allow-methods").map Char.toLower := by decide
  have e3 : (c!"Access-Control-Allow-Headers").map Char.toLower = (c!"access-control-allow-headers").map Char.toLower := by decide
  simp only [HttpSays, corsHeaders, List.mem_cons, List.not_mem_nil, or_false, exists_eq_or_imp, exists_eq_left, SameWord, e1, e2, e3, @eq_comm _ _ value]

end Art.Http
