import Verif.Lemmas.Team
import Verif.Spec.Team
import Verif.Spec.Chan

/-!
# How far the threads got when they write the files
-/

namespace Art.Team
open Spec

variable {L : Libs} {s : Settings} {files : List (FilePath × Str)}

/-- A lint about a file that could not be written. -/
def Says (x : FilePath × Str) (l : Lint) : Prop := l.level = .error ∧ l.category = .saveProject ∧ l.path = some x.1

/-- What a worker has got to do with a file. -/
def On (fs : FS) : Worker → Option (FilePath × Str) → Prop
  | .idle, none => True
  | .ended, none => True
  | .busy j, some x => Writing fs [] x j
  | .telling l, some x => Says x l
  | _, _ => False

/-- The invariant of `save_project`: `good` files are written, `bad` ones reported, `own` are with the workers, `qs` in the channel and `hs` not sent yet. -/
structure Writes (fs0 : FS) (files : List (FilePath × Str)) (g0 : List Lint) (t : Moment) (good bad begun qs hs : List (FilePath × Str))
    (own : List (Option (FilePath × Str))) (ls : List Lint) : Prop where
  phase : t.phase = .save
  files : files = begun ++ (qs ++ hs)
  parts : (good ++ bad ++ own.reduceOption).Perm begun
  queue : t.queue = qs.map saveJob
  hand : t.hand = hs.map fun x => .inl (saveJob x)
  good : ∀ x ∈ good, IMap.get? t.fs x.1 = some (.file (.text x.2))
  lints : t.got ++ t.mail = g0 ++ ls
  bad : List.Forall₂ Says bad ls
  own : List.Forall₂ (On t.fs) t.work own
  rest : ∀ x ∈ qs ++ hs, IMap.get? t.fs x.1 = IMap.get? fs0 x.1
  heard : t.sending = true → t.got = g0
  roots : t.roots = [] ∧ t.stack = []

theorem forall₂_mid {α β : Type _} {R : α → β → Prop} {a c : List α} {b : α} {l : List β} (h : List.Forall₂ R (a ++ b :: c) l) :
    ∃ la x lc, l = la ++ x :: lc ∧ List.Forall₂ R a la ∧ R b x ∧ List.Forall₂ R c lc := by
  obtain ⟨la, x, lc, e, h1, h2, h3⟩ := forall₂_split h.flip
  exact ⟨la, x, lc, e, h1.flip, h2, h3.flip⟩

theorem forall₂_imp_right {α β : Type _} {R S : α → β → Prop} {l : List α} {l' : List β} (h : List.Forall₂ R l l') (hi : ∀ x, ∀ y ∈ l', R x y → S x y) :
    List.Forall₂ S l l' := by
  induction h with
  | nil => exact .nil
  | cons h _ ih => exact .cons (hi _ _ List.mem_cons_self h) (ih fun x y hy => hi x y (List.mem_cons_of_mem _ hy))

theorem writing_first {fs : FS} {x : FilePath × Str} {a : Act} {rest : List Act} (h : Writing fs [] x (a :: rest)) : a.path = x.1 ∧ a.target = none := by
  rcases h with h | h | ⟨u, v, h1, h2, h3⟩ | ⟨_, h⟩
  · exact saveJob_mem (h ▸ List.mem_cons_self)
  · exact saveJob_mem (x := x) (a := a) (List.mem_cons_of_mem _ (h ▸ List.mem_cons_self))
  · cases v with
    | nil => cases h3
    | cons ch v =>
      obtain ⟨rfl, rfl⟩ := List.cons.inj h3
      exact ⟨rfl, rfl⟩
  · cases h

theorem writing_done {fs : FS} {x : FilePath × Str} (h : Writing fs [] x []) : IMap.get? fs x.1 = some (.file (.text x.2)) := by
  rcases h with h | h | ⟨u, v, h1, h2, h3⟩ | ⟨h, _⟩
  · cases h
  · cases h
  · cases v with
    | nil => rw [h2, h1, List.append_nil]
    | cons ch v => cases h3
  · cases h

theorem reduce_mid (b a : List (Option α)) (x : Option α) : (b ++ x :: a).reduceOption = b.reduceOption ++ x.toList ++ a.reduceOption := by
  cases x <;> simp [List.reduceOption, List.filterMap_append]

theorem on_frame {fs fs' : FS} {w : Worker} {o : Option (FilePath × Str)} (h : On fs w o) (hf : ∀ x, o = some x → IMap.get? fs' x.1 = IMap.get? fs x.1) :
    On fs' w o := by
  cases w <;> cases o <;> first | exact h | exact writing_frame h (hf _ rfl)

theorem writes_step {fs0 : FS} {g0 : List Lint} {t t' : Moment} {good bad begun qs hs : List (FilePath × Str)} {own : List (Option (FilePath × Str))} {ls : List Lint}
    (hnd : (files.map (·.1)).Nodup) (h : Writes fs0 files g0 t good bad begun qs hs own ls) (hs' : Step L s files t t') (hp : t'.phase = .save) :
    ∃ good bad begun qs hs own ls, Writes fs0 files g0 t' good bad begun qs hs own ls := by
  obtain ⟨h1, h2, h3, h4, h5, h6, h7, h8, h9, h10, h11, h12⟩ := h
  cases hs' with
  | findArtifacts d p => rw [h1] at p; cases p
  | findBackups d p => rw [h1] at p; cases p
  | sendFile j rest p q =>
    cases hs with
    | nil => rw [h5] at p; cases p
    | cons x hs =>
      rw [h5] at p
      obtain ⟨e, rfl⟩ := List.cons.inj p
      cases e
      refine ⟨good, bad, begun, qs ++ [x], hs, own, ls, h1, by rw [h2]; simp, h3, ?_, rfl, h6, h7, h8, h9, ?_, h11, h12⟩
      · show t.queue ++ [saveJob x] = _
        rw [h4]; simp
      · intro y hy; exact h10 y (by simpa using hy)
  | sendLint l rest p q =>
    cases hs with
    | nil => rw [h5] at p; cases p
    | cons x hs => rw [h5] at p; cases (List.cons.inj p).1
  | sent p q r u => exact ⟨good, bad, begun, qs, hs, own, ls, h1, h2, h3, h4, h5, h6, h7, h8, h9, h10, by rintro ⟨⟩, h12⟩
  | take b a j q p r =>
    rw [p] at h9
    obtain ⟨la, x, lc, rfl, g1, g2, g3⟩ := forall₂_mid h9
    cases x with
    | some x => cases g2
    | none =>
      cases qs with
      | nil => rw [h4] at r; cases r
      | cons y qs =>
        rw [h4] at r
        obtain ⟨rfl, rfl⟩ := List.cons.inj r
        refine ⟨good, bad, begun ++ [y], qs, hs, la ++ some y :: lc, ls, h1, by rw [h2]; simp, ?_, rfl, h5, h6, h7, h8, ?_, ?_, h11, h12⟩
        · rw [reduce_mid] at h3 ⊢
          refine List.Perm.trans ?_ (h3.append_right [y])
          simp only [Option.toList, List.append_nil, List.append_assoc]
          refine List.Perm.append_left _ (List.Perm.append_left _ (List.Perm.append_left _ ?_))
          exact List.perm_append_comm (l₁ := [y])
        · exact List.rel_append g1 (.cons (.inl rfl) g3)
        · intro z hz; exact h10 z (List.mem_cons_of_mem _ hz)
  | act b a x rest fs' p r =>
    rw [p] at h9
    obtain ⟨la, o, lc, rfl, g1, g2, g3⟩ := forall₂_mid h9
    cases o with
    | none => cases g2
    | some y =>
      obtain ⟨e1, e2, g4⟩ := writing_act g2 r
      have far : ∀ q, q ≠ y.1 → IMap.get? fs' q = IMap.get? t.fs q := by
        intro q hq
        refine apply_frame r (by rw [e1]; exact hq) (by rw [e2]; simp)
      have hn2 : ((y :: (good ++ bad ++ (la.reduceOption ++ (lc.reduceOption ++ (qs ++ hs))))).map (·.1)).Nodup := by
        rw [reduce_mid] at h3
        refine (List.Perm.nodup_iff (List.Perm.map _ ?_)).1 hnd
        rw [h2]
        refine (h3.symm.append_right _).trans ?_
        simp only [Option.toList, List.append_assoc, List.cons_append, List.nil_append]
        rw [← List.append_assoc bad, ← List.append_assoc good, ← List.append_assoc bad, ← List.append_assoc good]
        refine List.perm_middle.trans ?_
        simp
      have ne : ∀ z, z ∈ good ∨ z ∈ la.reduceOption ∨ z ∈ lc.reduceOption ∨ z ∈ qs ++ hs → z.1 ≠ y.1 := by
        intro z hz e
        refine (List.nodup_cons.1 hn2).1 (List.mem_map.2 ⟨z, ?_, e⟩)
        simp only [List.mem_append] at hz ⊢
        tauto
      refine ⟨good, bad, begun, qs, hs, la ++ some y :: lc, ls, h1, h2, h3, h4, h5, ?_, h7, h8, ?_, ?_, h11, h12⟩
      · intro z hz
        exact (far _ (ne z (.inl hz))).trans (h6 z hz)
      · refine List.rel_append ?_ (.cons g4 ?_)
        · refine forall₂_imp_right g1 fun w o ho hw => on_frame hw fun z hz => far _ (ne z (.inr (.inl ?_)))
          subst hz
          exact List.mem_filterMap.2 ⟨_, ho, rfl⟩
        · refine forall₂_imp_right g3 fun w o ho hw => on_frame hw fun z hz => far _ (ne z (.inr (.inr (.inl ?_))))
          subst hz
          exact List.mem_filterMap.2 ⟨_, ho, rfl⟩
      · intro z hz
        exact (far _ (ne z (.inr (.inr (.inr hz))))).trans (h10 z hz)
  | fail b a x rest m p =>
    rw [p] at h9
    obtain ⟨la, o, lc, rfl, g1, g2, g3⟩ := forall₂_mid h9
    cases o with
    | none => cases g2
    | some y =>
      refine ⟨good, bad, begun, qs, hs, la ++ some y :: lc, ls, h1, h2, h3, h4, h5, h6, h7, h8, List.rel_append g1 (.cons ?_ g3), h10, h11, h12⟩
      show Says y (failLint t.phase x m)
      rw [h1]
      exact ⟨rfl, rfl, congrArg some (writing_first g2).1⟩
  | tell b a l p q =>
    rw [p] at h9
    obtain ⟨la, o, lc, rfl, g1, g2, g3⟩ := forall₂_mid h9
    cases o with
    | none => cases g2
    | some y =>
      refine ⟨good, bad ++ [y], begun, qs, hs, la ++ none :: lc, ls ++ [l], h1, h2, ?_, h4, h5, h6, ?_, List.rel_append h8 (.cons g2 .nil), List.rel_append g1 (.cons trivial g3), h10, h11, h12⟩
      · rw [reduce_mid] at h3 ⊢
        refine List.Perm.trans ?_ h3
        simp only [Option.toList, List.append_nil, List.append_assoc]
        refine List.Perm.append_left _ (List.Perm.append_left _ ?_)
        rw [← List.append_assoc, ← List.append_assoc]
        exact List.Perm.append_right _ List.perm_append_comm
      · show t.got ++ (t.mail ++ [l]) = _
        rw [← List.append_assoc, h7, List.append_assoc]
  | ready b a p =>
    rw [p] at h9
    obtain ⟨la, o, lc, rfl, g1, g2, g3⟩ := forall₂_mid h9
    cases o with
    | none => cases g2
    | some y =>
      refine ⟨good ++ [y], bad, begun, qs, hs, la ++ none :: lc, ls, h1, h2, ?_, h4, h5, ?_, h7, h8, List.rel_append g1 (.cons trivial g3), h10, h11, h12⟩
      · rw [reduce_mid] at h3 ⊢
        refine List.Perm.trans ?_ h3
        simp only [Option.toList, List.append_nil, List.append_assoc]
        refine List.Perm.append_left _ ?_
        refine (List.perm_append_comm (l₁ := [y])).trans ?_
        simp only [List.append_assoc]
        exact List.Perm.append_left _ (List.Perm.append_left _ List.perm_append_comm)
      · intro z hz
        rcases List.mem_append.1 hz with hz | hz
        · exact h6 z hz
        · rw [List.mem_singleton] at hz
          subst hz
          exact writing_done g2
  | leave b a p q r =>
    rw [p] at h9
    obtain ⟨la, o, lc, rfl, g1, g2, g3⟩ := forall₂_mid h9
    cases o with
    | some y => cases g2
    | none => exact ⟨good, bad, begun, qs, hs, la ++ none :: lc, ls, h1, h2, h3, h4, h5, h6, h7, h8, List.rel_append g1 (.cons trivial g3), h10, h11, h12⟩
  | hear l m p q =>
    refine ⟨good, bad, begun, qs, hs, own, ls, h1, h2, h3, h4, h5, h6, ?_, h8, h9, h10, ?_, h12⟩
    · show t.got ++ [l] ++ m = _
      rw [← h7, p]; simp
    · intro e
      rw [q h1] at e
      cases e
  | backupErr p => rw [h1] at p; cases p
  | backupOk p => rw [h1] at p; cases p
  | saveErr p => cases hp
  | saveOk p => cases hp
  | removeOk p => cases hp

/-- Every moment of `save_project` comes after one at which `create_backups` had ended. -/
theorem writes_reaches {n : Nat} {fs : FS} (hnd : (files.map (·.1)).Nodup) {t : Moment} (h : Reaches L s files (start n fs s) t) (hp : t.phase = .save) :
    ∃ t0, Reaches L s files (start n fs s) t0 ∧ t0.phase = .backup ∧ t0.Over ∧ hasError t0.got = false ∧
      ∃ good bad begun qs hs own ls, Writes t0.fs files t0.got t good bad begun qs hs own ls := by
  induction h with
  | refl => cases hp
  | @tail u v hu hs ih =>
    by_cases hpu : u.phase = .save
    · obtain ⟨t0, h1, h2, h3, h4, _, _, _, _, _, _, _, h5⟩ := ih hpu
      exact ⟨t0, h1, h2, h3, h4, writes_step hnd h5 hs hp⟩
    · have keep : ∀ {a b : Moment}, a.phase = b.phase → b.phase = .save → a.phase = .save := fun e e' => e.trans e'
      cases hs with
      | backupOk p q r =>
        refine ⟨u, hu, p, q, r, [], [], [], [], files, List.replicate u.work.length none, [], rfl, rfl, ?_, rfl, rfl, by simp, ?_, .nil, ?_, fun _ _ => rfl, fun _ => rfl, rfl, rfl⟩
        · have : (List.replicate u.work.length (none : Option (FilePath × Str))).reduceOption = [] := by
            unfold List.reduceOption
            rw [List.filterMap_eq_nil_iff]
            intro x hx
            rw [List.eq_of_mem_replicate hx]
            rfl
          rw [this]
          exact .nil
        · simp [Moment.next]
        · show List.Forall₂ _ (u.work.map fun _ => Worker.idle) _
          rw [List.map_const']
          generalize u.work.length = k
          induction k with
          | zero => exact .nil
          | succ k ihk => exact .cons trivial ihk
      | backupErr p => cases hp
      | saveErr p => cases hp
      | saveOk p => cases hp
      | removeOk p => cases hp
      | _ => exact absurd hp hpu

theorem reduce_length (l : List (Option α)) : l.reduceOption.length ≤ l.length := List.length_filterMap_le _ _

theorem writes_interrupted {n : Nat} {fs0 : FS} {g0 : List Lint} {t : Moment} {good bad begun qs hs : List (FilePath × Str)} {own : List (Option (FilePath × Str))} {ls : List Lint}
    (h : Writes fs0 files g0 t good bad begun qs hs own ls) (hn : t.work.length = n) : Interrupted n fs0 t.fs files (t.got ++ t.mail) := by
  refine ⟨begun, qs ++ hs, own.reduceOption.map (·.1), h.files, h.rest, ?_, ?_⟩
  · rw [List.length_map, ← hn, h.own.length_eq]
    exact reduce_length own
  · intro x hx
    have := h.parts.mem_iff.2 hx
    rcases List.mem_append.1 this with hx | hx
    · rcases List.mem_append.1 hx with hx | hx
      · refine .inl ?_
        unfold contentAt
        rw [h.good x hx]
      · obtain ⟨l, hl, hsay⟩ := forall₂_mem h.bad hx
        refine .inr (.inl ⟨l, ?_, hsay⟩)
        rw [h.lints]
        exact List.mem_append_right _ hl
    · exact .inr (.inr (List.mem_map_of_mem hx))

/-! ## progress -/

/-- What a directory lists are its entries. -/
def Listed (t : Moment) : Prop := ∀ h ∈ t.stack, ∀ e ∈ h.listed, isChild h.dir e = true

theorem open_listed (fs : FS) (d : FilePath) : ∀ e ∈ (openDir fs d).listed, isChild (openDir fs d).dir e = true := by
  intro e he
  simp only [openDir, List.mem_map] at he
  obtain ⟨x, hx, rfl⟩ := he
  unfold children at hx
  exact (List.mem_filter.1 hx).2

theorem listed_walk {f : FilePath → Bool → Bool} {mk : FilePath → Act} {c d : LiveCfg} (hw : WalkStep L f mk c d)
    (h : ∀ h ∈ c.stack, ∀ e ∈ h.listed, isChild h.dir e = true) : ∀ h ∈ d.stack, ∀ e ∈ h.listed, isChild h.dir e = true := by
  have enter : ∀ e, ∀ h ∈ enterDir c.fs f e, ∀ x ∈ h.listed, isChild h.dir x = true := by
    intro e h hh
    unfold enterDir at hh
    split at hh
    · rw [List.mem_singleton] at hh
      subst hh
      exact open_listed _ _
    · cases hh
  cases hw with
  | missing r rs h1 h2 h3 => exact h
  | fileRoot r rs x h1 h2 h3 => exact h
  | dirRoot r rs h1 h2 h3 => exact enter r
  | file hd st e x h1 h2 h3 h4 =>
    intro k hk
    rcases List.mem_cons.1 hk with rfl | hk
    · exact h hd (h1 ▸ List.mem_cons_self)
    · exact h k (h1 ▸ List.mem_cons_of_mem _ hk)
  | dir hd st e h1 h2 h3 h4 =>
    intro k hk
    rcases List.mem_append.1 hk with hk | hk
    · exact enter e k hk
    · rcases List.mem_cons.1 hk with rfl | hk
      · exact h hd (h1 ▸ List.mem_cons_self)
      · exact h k (h1 ▸ List.mem_cons_of_mem _ hk)
  | fetch above below hd e n h1 h2 h3 =>
    intro k hk
    rcases List.mem_append.1 hk with hk | hk
    · exact h k (h1 ▸ List.mem_append_left _ hk)
    · rcases List.mem_cons.1 hk with rfl | hk
      · exact h hd (h1 ▸ List.mem_append_right _ List.mem_cons_self)
      · exact h k (h1 ▸ List.mem_append_right _ (List.mem_cons_of_mem _ hk))
  | stale hd st e h1 h2 h3 h4 =>
    intro k hk
    rcases List.mem_cons.1 hk with rfl | hk
    · exact h hd (h1 ▸ List.mem_cons_self)
    · exact h k (h1 ▸ List.mem_cons_of_mem _ hk)
  | lost hd st e h1 h2 h3 h4 => simp
  | close hd st h1 h2 => exact fun k hk => h k (h1 ▸ List.mem_cons_of_mem _ hk)

theorem listed_reaches {n : Nat} {fs : FS} {t : Moment} (h : Reaches L s files (start n fs s) t) : Listed t := by
  induction h with
  | refl => simp [Listed, start]
  | tail _ hs ih =>
    cases hs with
    | findArtifacts d p q r w => exact listed_walk w ih
    | findBackups d p q r w => exact listed_walk w ih
    | backupOk p => simp [Listed, Moment.next]
    | saveOk p => simp [Listed, Moment.next]
    | _ => exact ih

/-- A walk that is not over can go on. -/
theorem walk_on (f : FilePath → Bool → Bool) (mk : FilePath → Act) {c : LiveCfg} (hl : ∀ h ∈ c.stack, ∀ e ∈ h.listed, isChild h.dir e = true)
    (h : c.roots ≠ [] ∨ c.stack ≠ []) : ∃ d, WalkStep L f mk c d := by
  cases hst : c.stack with
  | nil =>
    cases hr : c.roots with
    | nil => simp [hst, hr] at h
    | cons r rs =>
      match hg : IMap.get? c.fs r with
      | none => exact ⟨_, .missing r rs hst hr hg⟩
      | some (.file x) => exact ⟨_, .fileRoot r rs x hst hr hg⟩
      | some .dir => exact ⟨_, .dirRoot r rs hst hr hg⟩
  | cons hd st =>
    by_cases hall : ∀ e ∈ hd.listed, e ∈ hd.seen ∨ IMap.get? c.fs e = none
    · exact ⟨_, .close hd st hst hall⟩
    · push Not at hall
      obtain ⟨e, h1, h2, h3⟩ := hall
      have hc := hl hd (hst ▸ List.mem_cons_self) e h1
      match hg : IMap.get? c.fs e with
      | none => exact absurd hg h3
      | some (.file x) => exact ⟨_, .file hd st e x hst hc h2 hg⟩
      | some .dir => exact ⟨_, .dir hd st e hst hc h2 hg⟩

/-- Nobody can do anything. -/
def Stuck (L : Libs) (s : Settings) (files : List (FilePath × Str)) (t : Moment) : Prop := ∀ t', ¬ Step L s files t t'

/-- A worker that can do nothing waits for a file or for room in the channel of lints, or is gone. -/
theorem worker_stuck {t : Moment} (h : Stuck L s files t) {w : Worker} (hw : w ∈ t.work) :
    (w = .idle ∧ t.queue = [] ∧ t.sending = true) ∨ ((∃ l, w = .telling l) ∧ room ≤ t.mail.length) ∨ w = .ended := by
  obtain ⟨b, a, e⟩ := List.append_of_mem hw
  cases w with
  | idle =>
    refine .inl ⟨rfl, ?_⟩
    cases hq : t.queue with
    | cons j q => exact absurd (.take t b a j q e hq) (h _)
    | nil =>
      refine ⟨rfl, ?_⟩
      cases hs : t.sending with
      | true => rfl
      | false => exact absurd (.leave t b a e hq hs) (h _)
  | busy j =>
    cases j with
    | nil => exact absurd (.ready t b a e) (h _)
    | cons x rest => exact absurd (.fail t b a x rest [] e) (h _)
  | telling l =>
    refine .inr (.inl ⟨⟨l, rfl⟩, ?_⟩)
    by_contra hlt
    exact absurd (.tell t b a l e (by omega)) (h _)
  | ended => exact .inr (.inr rfl)

/-- Nobody can do anything while the phases are not over: this is in `save_project`, both channels are full and every worker waits. -/
theorem stuck_full {n : Nat} {t : Moment} (hi : Inv n t) (hl : Listed t) (hn : 0 < n) (hsv : t.phase = .save → (t.roots = [] ∧ t.stack = []) ∧ ∀ l, .inr l ∉ t.hand)
    (hp : t.phase = .backup ∨ t.phase = .save ∨ t.phase = .remove) (h : Stuck L s files t) :
    t.phase = .save ∧ t.sending = true ∧ room ≤ t.mail.length ∧ room ≤ t.queue.length ∧ t.hand ≠ [] ∧ ∀ w ∈ t.work, ∃ l, w = .telling l := by
  have hroom : 0 < room := by decide
  -- the main thread does not receive
  have hear : ∀ l m, t.mail = l :: m → t.phase = .save ∧ t.sending = true := by
    intro l m e
    by_contra hne
    refine h _ (.hear t l m e ?_)
    intro hs
    cases hsn : t.sending with
    | false => rfl
    | true => exact absurd ⟨hs, hsn⟩ hne
  have hsend : t.sending = true := by
    by_contra hs
    have hs : t.sending = false := by simpa using hs
    have hm : t.mail = [] := by
      cases hm : t.mail with
      | nil => rfl
      | cons l m =>
        have := (hear l m hm).2
        rw [hs] at this
        cases this
    have hov : t.Over := by
      refine ⟨hm, hs, fun w hw => ?_⟩
      rcases worker_stuck h hw with ⟨_, _, h3⟩ | ⟨_, h3⟩ | h3
      · rw [hs] at h3; cases h3
      · rw [hm] at h3
        simp only [List.length_nil] at h3
        omega
      · exact h3
    rcases hp with hp | hp | hp
    · cases he : hasError t.got with
      | true => exact h _ (.backupErr t hp hov he)
      | false => exact h _ (.backupOk t hp hov he)
    · cases he : hasError t.got with
      | true => exact h _ (.saveErr t hp hov he)
      | false => exact h _ (.saveOk t hp hov he)
    · exact h _ (.removeOk t hp hov)
  have hhand : t.hand ≠ [] := by
    intro hh
    by_cases hrs : t.roots = [] ∧ t.stack = []
    · exact h _ (.sent t hsend hh hrs.1 hrs.2)
    · have hw := walk_on (L := L) (c := t.walker) (f := (artFilter s.excludeArtifactPaths)) (mk := backupAct) hl (by
        by_contra hne
        push Not at hne
        exact hrs hne)
      have hw' := walk_on (L := L) (c := t.walker) (f := (backupFilter s.excludeArtifactPaths)) (mk := .remove) hl (by
        by_contra hne
        push Not at hne
        exact hrs hne)
      rcases hp with hp | hp | hp
      · exact h _ (.findArtifacts t _ hp hsend hh hw.choose_spec)
      · exact hrs (hsv hp).1
      · exact h _ (.findBackups t _ hp hsend hh hw'.choose_spec)
  have noend : ∀ w ∈ t.work, w ≠ .ended := by
    intro w hw e
    have := (hi.ended (e ▸ hw)).1
    rw [hsend] at this
    cases this
  have hmail : t.mail ≠ [] → t.phase = .save := by
    intro hne
    cases hm : t.mail with
    | nil => exact absurd hm hne
    | cons l m => exact (hear l m hm).1
  cases hd : t.hand with
  | nil => exact absurd hd hhand
  | cons x rest =>
    cases x with
    | inr l =>
      have hm : room ≤ t.mail.length := by
        by_contra hlt
        exact h _ (.sendLint t l rest hd (by omega))
      have hne : t.mail ≠ [] := by
        intro e
        rw [e] at hm
        simp only [List.length_nil] at hm
        omega
      exact absurd (hd ▸ List.mem_cons_self) ((hsv (hmail hne)).2 l)
    | inl j =>
      have hq : room ≤ t.queue.length := by
        by_contra hlt
        exact h _ (.sendFile t j rest hd (by omega))
      have hall : ∀ w ∈ t.work, (∃ l, w = .telling l) ∧ room ≤ t.mail.length := by
        intro w hw
        rcases worker_stuck h hw with ⟨_, h2, _⟩ | h2 | h2
        · rw [h2] at hq
          simp only [List.length_nil] at hq
          omega
        · exact h2
        · exact absurd h2 (noend w hw)
      have hm : room ≤ t.mail.length := by
        cases hwk : t.work with
        | nil =>
          have := hi.count
          rw [hwk] at this
          simp only [List.length_nil] at this
          omega
        | cons w ws => exact (hall w (by rw [hwk]; simp)).2
      refine ⟨hmail ?_, hsend, hm, hq, by simp, fun w hw => (hall w hw).1⟩
      intro e
      rw [e] at hm
      simp only [List.length_nil] at hm
      omega

end Art.Team
