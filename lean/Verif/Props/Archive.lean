import Verif.Lemmas.Archive
import Verif.Props.Art

/-!
# C73: the archive with the web page
-/

namespace Art
namespace Archive
open Spec Cli

variable {t : Tree} {b : Bytes} {l : List (List Bytes × Bytes)} {content : Bytes → Content} {site : List (List Str × Content)}

/-- The build fails only if the name of a file directly in the directory of the page is too long. -/
theorem C73_fails_iff (t : Tree) : tarFrontend t = none ↔ ∃ n c, t.Has [n] c ∧ Long [n] := by
  unfold tarFrontend
  have := tarDir_ok (t := t) (pre := [])
  simp only [List.nil_append] at this
  rw [← this]
  by_cases hk : (tarDir [] t).2 = true
  · rw [if_pos hk, hk]
    exact ⟨nofun, nofun⟩
  · rw [if_neg hk]
    exact ⟨fun _ => by simpa using hk, fun _ => rfl⟩

/-- What was packed can be unpacked. Every file that comes out was in the directory, at this path and with these bytes, and none comes out twice. A file that does not come out is
in a directory, or somewhere below it, that has a file whose path is too long. -/
theorem C73_unpacks (w : t.WF) (h : tarFrontend t = some b) : ∃ l, unpackTar b = some l ∧ (l.map (·.1)).Nodup ∧
    (∀ e ∈ l, ∃ p, e.1 = p.map strBytes ∧ t.Has p e.2 ∧ ¬ Long p) ∧
    ∀ p c, t.Has p c → (p.map strBytes, c) ∈ l ∨ ∃ q r m d, p = q ++ r ∧ r ≠ [] ∧ t.Has (q ++ [m]) d ∧ Long (q ++ [m]) := by
  refine ⟨_, unpack_kept w h, ?_, ?_, ?_⟩
  · rw [List.map_map]
    have := (kept_apart (pre := []) w).imp (S := fun e e' : List Str × Bytes => e.1.map strBytes ≠ e'.1.map strBytes) (by
      intro e e' he heq
      have : e.1 = e'.1 := (List.map_injective_iff.2 fun a b h => strBytes_inj h) heq
      exact he.1 (this ▸ List.prefix_refl _))
    rw [List.Nodup, List.pairwise_map]
    exact this
  · intro e he
    obtain ⟨x, hx, rfl⟩ := List.mem_map.1 he
    obtain ⟨p, e1, e2, e3⟩ := kept_has hx
    rw [List.nil_append] at e1
    exact ⟨p, by rw [e1], e2, e1 ▸ e3⟩
  · intro p c hp
    rcases kept_missing hp [] with h | ⟨q, r, m, d, e1, e2, e3, e4⟩
    · exact .inl (List.mem_map.2 ⟨_, h, rfl⟩)
    · exact .inr ⟨q, r, m, d, e1, e2, e3, by simpa using e4⟩

/-- The page is complete exactly if no path is too long; then the build does not fail. -/
theorem C73_complete_iff (w : t.WF) : (∃ b l, tarFrontend t = some b ∧ unpackTar b = some l ∧ ∀ p c, t.Has p c → (p.map strBytes, c) ∈ l) ↔ ∀ p c, t.Has p c → ¬ Long p := by
  constructor
  · rintro ⟨b, l, h1, h2, h3⟩ p c hp
    obtain ⟨l', e, _, h4, _⟩ := C73_unpacks w h1
    cases h2.symm.trans e
    obtain ⟨q, e1, _, e3⟩ := h4 _ (h3 p c hp)
    have : p = q := (List.map_injective_iff.2 fun a b h => strBytes_inj h) e1
    exact this ▸ e3
  · intro h
    cases hb : tarFrontend t with
    | none =>
      obtain ⟨n, c, h1, h2⟩ := (C73_fails_iff t).1 hb
      exact absurd h2 (h _ _ h1)
    | some b =>
      obtain ⟨l, e, _, _, h5⟩ := C73_unpacks w hb
      refine ⟨b, l, rfl, e, fun p c hp => ?_⟩
      rcases h5 p c hp with h6 | ⟨q, r, m, d, _, _, e3, e4⟩
      · exact h6
      · exact absurd e4 (h _ _ e3)

theorem site_names (w : t.WF) (h : tarFrontend t = some b) (hu : unpackTar b = some l) (hs : SiteOf content l site) : site = (kept [] t).map fun e => (e.1, content e.2) := by
  cases (unpack_kept w h).symm.trans hu
  obtain ⟨h1, h2⟩ := hs
  rw [List.map_map] at h1 h2
  refine List.ext_getElem? fun i => ?_
  have a := congrArg (fun l => l[i]?) h1
  have c := congrArg (fun l => l[i]?) h2
  simp only [List.getElem?_map] at a c ⊢
  cases hk : (kept [] t)[i]? with
  | none =>
    rw [hk] at a
    simpa using a
  | some e =>
    rw [hk] at a c
    simp only [Option.map_some, Function.comp_apply] at a c ⊢
    obtain ⟨x, hx, ex⟩ := Option.map_eq_some_iff.1 a
    rw [hx] at c ⊢
    have e1 : x.1 = e.1 := (List.map_injective_iff.2 fun a b h => strBytes_inj h) ex
    have e2 : x.2 = content e.2 := by simpa using c
    rw [← e1, ← e2]

/-- What is in the program is a page that C71 speaks about, if the directory had a file `initial.json` and its name got into the archive. -/
theorem C73_good (w : t.WF) (h : tarFrontend t = some b) (hu : unpackTar b = some l) (hs : SiteOf content l site) (hi : ∃ c, t.Has [c!"initial.json"] c) : GoodSite site := by
  have e := site_names w h hu hs
  refine ⟨?_, ?_, ?_⟩
  · intro x hx
    rw [e] at hx
    obtain ⟨y, hy, rfl⟩ := List.mem_map.1 hx
    obtain ⟨p, e1, e2, -⟩ := kept_has hy
    rw [List.nil_append] at e1
    obtain ⟨n1, -⟩ := Has_names w e2
    exact ⟨e1 ▸ Has_ne e2, fun n hn => ⟨(n1 n (e1 ▸ hn)).some, (n1 n (e1 ▸ hn)).slash⟩⟩
  · rw [e, List.pairwise_map]
    exact kept_apart w
  · obtain ⟨c, hc⟩ := hi
    rcases kept_missing hc [] with h6 | ⟨q, r, m, d, e1, e2, e3, e4⟩
    · rw [e]
      exact ⟨content c, List.mem_map.2 ⟨_, h6, rfl⟩⟩
    · have hq : q = [] := by
        cases q with
        | nil => rfl
        | cons a q => cases q <;> cases r <;> simp at e1 e2
      subst hq
      have : tarFrontend t = none := (C73_fails_iff t).2 ⟨m, d, e3, by simpa using e4⟩
      rw [h] at this
      cases this

/-- From the directory on the machine where the program was built to the directory on the machine where it runs: `art export html` succeeds exactly if the directory can take the
page, and then it has all files of the page with their bytes. Only `initial.json` is replaced by the project. -/
theorem C73_page (w : t.WF) (h : tarFrontend t = some b) (hu : unpackTar b = some l) (hs : SiteOf content l site) (hi : ∃ c, t.Has [c!"initial.json"] c)
    (hl : ∀ p c, t.Has p c → ¬ Long p) (fs : FS) (dest : FilePath) (initial : Str) :
    ((exportHtml site fs dest initial).1 = 0 ↔ Ready fs dest site) ∧
    ((exportHtml site fs dest initial).1 = 0 → ∀ p c, t.Has p c → p ≠ [c!"initial.json"] →
      IMap.get? (exportHtml site fs dest initial).2 (dest ++ Path p) = some (.file (content c))) ∧
    ∀ q, q ≠ dest → (∀ p c, t.Has p c → ∀ l r, p = l ++ r → l ≠ [] → q ≠ dest ++ Path l) →
      (exportHtml site fs dest initial).1 = 0 → IMap.get? (exportHtml site fs dest initial).2 q = IMap.get? fs q := by
  have hg := C73_good w h hu hs hi
  have e := site_names w h hu hs
  have done : (exportHtml site fs dest initial).1 = 0 → Unpacked fs dest site initial (exportHtml site fs dest initial).2 := by
    intro h0
    obtain ⟨f, ef, hf⟩ := (export_ends hg fs dest initial).1 ((C71_html_iff hg initial).1 h0)
    rw [ef]
    exact hf
  refine ⟨C71_html_iff hg initial, fun h0 p c hp hne => ?_, fun q hq hr h0 => ?_⟩
  · refine (done h0).files (p, content c) ?_ hne
    rw [e]
    rcases kept_missing hp [] with h6 | ⟨q, r, m, d, _, _, e3, e4⟩
    · exact List.mem_map.2 ⟨_, h6, rfl⟩
    · exact absurd (by simpa using e4) (hl _ _ e3)
  · refine (done h0).rest q hq fun x hx => ?_
    rw [e] at hx
    obtain ⟨y, hy, rfl⟩ := List.mem_map.1 hx
    obtain ⟨p, e1, e2, -⟩ := kept_has hy
    rw [List.nil_append] at e1
    exact hr y.1 y.2 (e1 ▸ e2)

/-! ## damage -/

theorem byteSum_append (a b : Bytes) : byteSum (a ++ b) = byteSum a + byteSum b := by simp [byteSum]

theorem byteSum_cons (x : UInt8) (b : Bytes) : byteSum (x :: b) = x.toNat + byteSum b := by simp [byteSum]

theorem parseOct_zeros {f : Bytes} (h : ∀ a ∈ f, a = 0) : parseOct f = none := by
  have : f.takeWhile (· != 0) = [] := by
    cases f with
    | nil => rfl
    | cons a f => rw [h a (by simp)]; rfl
  unfold parseOct
  rw [this]
  rfl

/-- A byte of a header outside of the checksum, and the same header with another byte there. -/
theorem changed_header {u v : Bytes} {x y : UInt8} (hl : u.length + 1 + v.length = 512) (ho : u.length < 148 ∨ 156 ≤ u.length) (hxy : x ≠ y) :
    field (u ++ x :: v) 148 8 = field (u ++ y :: v) 148 8 ∧ checksum (u ++ x :: v) ≠ checksum (u ++ y :: v) := by
  have hn : x.toNat ≠ y.toNat := fun e => hxy (UInt8.toNat_inj.1 e)
  rcases ho with ho | ho
  · obtain ⟨k, hk⟩ : ∃ k, 148 = u.length + (k + 1) := ⟨147 - u.length, by omega⟩
    have h8 : 156 = u.length + (k + 8 + 1) := by omega
    have d1 : ∀ z, (u ++ z :: v).drop 148 = v.drop k := fun z => by rw [hk, List.drop_append]; simp
    have d2 : ∀ z, (u ++ z :: v).drop 156 = v.drop (k + 8) := fun z => by rw [h8, List.drop_append]; simp
    have t1 : ∀ z, (u ++ z :: v).take 148 = u ++ z :: v.take k := fun z => by rw [hk, List.take_append]; simp
    refine ⟨by simp only [field, d1], fun e => hn ?_⟩
    simp only [checksum, d2, t1, byteSum_append, byteSum_cons] at e
    omega
  · have d2 : ∀ z, (u ++ z :: v).drop 156 = u.drop 156 ++ z :: v := fun z => List.drop_append_of_le_length ho
    have t1 : ∀ z, (u ++ z :: v).take 148 = u.take 148 := fun z => List.take_append_of_le_length (by omega)
    have d1 : ∀ z, ((u ++ z :: v).drop 148).take 8 = (u.drop 148).take 8 := fun z => by
      rw [List.drop_append_of_le_length (by omega), List.take_append_of_le_length (by rw [List.length_drop]; omega)]
    refine ⟨by simp only [field, d1], fun e => hn ?_⟩
    simp only [checksum, d2, t1, byteSum_append, byteSum_cons] at e
    omega

theorem readTar_changed {u v r : Bytes} {x y : UInt8} (hl : u.length + 1 + v.length = 512) (ho : u.length < 148 ∨ 156 ≤ u.length) (hxy : x ≠ y)
    (h : readTar ((u ++ x :: v) ++ r) ≠ none) : readTar ((u ++ y :: v) ++ r) = none := by
  obtain ⟨ef, ec⟩ := changed_header hl ho hxy
  have tk : ∀ z, ((u ++ z :: v) ++ r).take 512 = u ++ z :: v := fun z => take_left' (by simp; omega)
  have len : ∀ z, ¬ ((u ++ z :: v) ++ r).length < 512 := fun z => by simp; omega
  have ne : ∀ z, ¬ ((u ++ z :: v) ++ r).isEmpty = true := fun z => by simp
  rw [readTar, if_neg (ne x), dif_neg (len x)] at h
  rw [readTar, if_neg (ne y), dif_neg (len y)]
  simp only [tk] at h ⊢
  have nz : (∀ a ∈ field (u ++ y :: v) 148 8, a = 0) → parseOct (field (u ++ y :: v) 148 8) = none := parseOct_zeros
  have mem : ∀ {z a}, a ∈ field (u ++ z :: v) 148 8 → a ∈ u ++ z :: v := fun ha => List.mem_of_mem_drop (List.mem_of_mem_take ha)
  by_cases hx0 : (u ++ x :: v).all (· == 0) = true
  · have hx0 := List.all_eq_true.1 hx0
    have hy : ¬ (u ++ y :: v).all (· == 0) = true := fun hy => by
      have a := hx0 x (by simp)
      have b := List.all_eq_true.1 hy y (by simp)
      simp only [beq_iff_eq] at a b
      exact hxy (a.trans b.symm)
    rw [if_neg hy, nz fun a ha => by rw [← ef] at ha; simpa using hx0 a (mem ha)]
  · rw [if_neg hx0] at h
    cases hp : parseOct (field (u ++ x :: v) 148 8) with
    | none => rw [hp] at h; exact absurd rfl h
    | some ck =>
      have hp' := hp
      rw [ef] at hp'
      have hy : ¬ (u ++ y :: v).all (· == 0) = true := fun hy => by
        rw [nz fun a ha => by simpa using List.all_eq_true.1 hy a (mem ha)] at hp'
        cases hp'
      rw [if_neg hy, hp']
      rw [hp] at h
      cases hs : parseOct (field (u ++ x :: v) 124 12) with
      | none => rw [hs] at h; exact absurd rfl h
      | some size =>
        rw [hs] at h
        simp only at h
        have hck : ck = checksum (u ++ x :: v) := by
          by_contra hc
          rw [if_pos hc] at h
          exact h rfl
        cases parseOct (field (u ++ y :: v) 124 12) with
        | none => rfl
        | some k =>
          simp only
          rw [if_pos (by rw [hck]; exact ec)]

/-- C73. A damaged header is noticed: if one byte of a header is changed, other than in the sum itself, then nothing is unpacked. It does not matter how many files come before. -/
theorem C73_damage {before : Tree} {pre : List Str} (w : before.WF) {u v r : Bytes} {x y : UInt8} (hl : u.length + 1 + v.length = 512) (ho : u.length < 148 ∨ 156 ≤ u.length)
    (hxy : x ≠ y) (h : unpackTar ((tarDir pre before).1 ++ ((u ++ x :: v) ++ r)) ≠ none) : unpackTar ((tarDir pre before).1 ++ ((u ++ y :: v) ++ r)) = none := by
  unfold unpackTar at h ⊢
  rw [readTar_dir w] at h ⊢
  have : readTar ((u ++ x :: v) ++ r) ≠ none := fun e => h (by rw [e]; rfl)
  rw [readTar_changed hl ho hxy this]
  rfl

/-- C73. Damage of what is in a file is not noticed: the sum is about the header only. -/
theorem C73_unnoticed {path : List Str} {c d head r : Bytes} (hp : path ≠ []) (hn : ∀ n ∈ path, NameOk n) (hx : header path c.length = some head) (hs : c.length < 8 ^ 11) (hd : d.length = c.length)
    {l : List (List Bytes × Bytes)} (h : unpackTar (head ++ c ++ padding c.length ++ r) = some ((path.map strBytes, c) :: l)) :
    unpackTar (head ++ d ++ padding c.length ++ r) = some ((path.map strBytes, d) :: l) := by
  have key : ∀ e : Bytes, e.length = c.length → unpackTar (head ++ e ++ padding c.length ++ r) = (unpackTar r).map ((path.map strBytes, e) :: ·) := by
    intro e he
    unfold unpackTar
    rw [← he, readTar_file (by rw [he]; exact hx) (by rw [he]; exact hs)]
    cases readTar r with
    | none => rfl
    | some es =>
      simp only [Option.map_some, Option.bind_eq_bind, Option.bind_some, List.mapM_cons, placeOf_header hp hn (by rw [he]; exact hx) (by rw [he]; exact hs : e.length < 8 ^ 11)]
      cases es.mapM placeOf <;> rfl
  rw [key c rfl] at h
  obtain ⟨l', e1, e2⟩ := Option.map_eq_some_iff.1 h
  cases e2
  rw [key d hd, e1]
  rfl

end Archive
end Art
