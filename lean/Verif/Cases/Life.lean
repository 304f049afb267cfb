import Verif.Cases.Session
import Verif.Props.Life

/-!
# Concrete cases for C74
-/

namespace Art
namespace Cli
open Spec Whole

theorem stem_same {p q : FilePath} (h : SameStem p q) : p.reverse.dropWhile (fun c => c != '.') = q.reverse.dropWhile (fun c => c != '.') := by
  obtain ⟨d, n, x, y, rfl, rfl, -, -, -, hx, hy⟩ := h
  have main : ∀ z : Str, '.' ∉ z → (d ++ '/' :: (n ++ '.' :: z)).reverse.dropWhile (fun c => c != '.') = '.' :: (d ++ '/' :: n).reverse := by
    intro z hz
    have e : (d ++ '/' :: (n ++ '.' :: z)).reverse = z.reverse ++ '.' :: (d ++ '/' :: n).reverse := by simp
    rw [e, List.dropWhile_append_of_pos]
    · simp
    · intro c hc
      simp only [bne_iff_ne, ne_eq]
      rintro rfl
      exact hz (List.mem_reverse.1 hc)
  rw [main x hx, main y hy]

/-- The operations of `exOps` as they are sent. -/
def lifeWire : List WireOp := [.update ⟨c!"SPC-b", c!"/p/design/b.md", [c!"REQ-b", c!"REQ-a"], none, c!"even more  \n"⟩ (exId exImB).ser,
  .create ⟨c!"SPC-c", c!"/p/design/c.toml", [], none, c!"new"⟩, .delete c!"SPC-a" (exId exImA).ser]

theorem lifeWire_read : Res.mapM' (WireOp.read false) lifeWire = .ok exOps := by decide +kernel

/-- The events of a request. -/
def asks (i : Nat) (r : Request) (a : Reply) : List Art.Event := [.arrive i r, .lock i, .finish i r a, .send i a]

theorem asks_clean {E : Env} {s : Settings} {i : Nat} {r : Request} {a : Reply} (h : Clean E s (.finish i r a)) : ∀ e ∈ asks i r a, Clean E s e := by
  intro e he
  simp only [asks, List.mem_cons, List.not_mem_nil, or_false] at he
  rcases he with rfl | rfl | rfl | rfl
  · trivial
  · trivial
  · exact h
  · trivial

theorem life_holds {c : Categorized} {p : Project} (h : ReadsProject keptLibs (fun _ => some exRaw) exId 4 exGood c!"/p" (.ok (c, p))) :
    Holds (exEnv keptLibs) c!"/p" exS exGood p := C74_read exGood_wf exGood_settings exGood_safe h

/-- What the modification leaves can be read. -/
theorem life_now : (modifiedNow keptLibs exId exGood exS exOps 1000).map (fun r => decide (findRepo r.2.2 c!"/p/src" = some c!"/p" ∧
      (walkCode r.2.2 exS).countP (fun f => (codeSent keptLibs r.2.2 f).dead) < 4 ∧
      (walkArtifacts r.2.2 exS).countP (fun f => (artSent keptLibs exS.pre r.2.2 f).dead) < 4)) = some true := by decide +kernel

/-- A server in `/p/src` that is asked for three changes. The history is clean, and the project changed. -/
theorem life_case : ∃ c p s0 hist w t, ReadsProject keptLibs (fun _ => some exRaw) exId 4 exGood c!"/p" (.ok (c, p)) ∧
    Starts (exEnv keptLibs) exGood c!"/p/src" c!"/p" s0 ∧ Art.Runs (exEnv keptLibs) s0 hist t ∧ (∀ e ∈ hist, Clean (exEnv keptLibs) exS e) ∧
    hist = asks 0 (.modify (some (some lifeWire))) (.success w) ∧ t.value = w ∧ editable w.project = [exReqA, exImB'.clean, exImC] ∧ Storable keptLibs exS w.project ∧
    Modifies keptLibs (fun _ => some exRaw) exId (fun _ => []) 4 exGood c!"/p" exOps (some (.ok (w.lints, w.project))) t.disk ∧
    (findRepo t.disk c!"/p/src" = some c!"/p" ∧ (walkCode t.disk exS).countP (fun f => (codeSent keptLibs t.disk f).dead) < 4 ∧
      (walkArtifacts t.disk exS).countP (fun f => (artSent keptLibs exS.pre t.disk f).dead) < 4) := by
  obtain ⟨c, p, r0⟩ := exGood_kept_reads
  obtain ⟨c1, q, fs', hm, -, -, -, once, surv, ncr, hed, hnow⟩ := exKept
  have hq : Storable keptLibs exS q := by
    refine ⟨surv, ?_, ncr⟩
    rw [hed]
    intro a ha b hb h
    have := stem_same h
    clear h
    revert a b
    decide +kernel
  have hleft := life_now
  rw [hnow] at hleft
  have hf := exGood_repo
  have hbase : (Server.init exGood ⟨p, c⟩).value.project.settings.base = c!"/p" := base_of_read (E := exEnv keptLibs) r0
  generalize exGood = g at r0 hm hf hbase ⊢
  obtain ⟨u, a1, a2, a3, a4, a5, a6, a7⟩ := Runs.request (E := exEnv keptLibs) (s := Server.init g ⟨p, c⟩) (i := 0) rfl rfl rfl rfl
    (Handles.modify lifeWire_read (by rw [hbase]; exact hm))
  refine ⟨c, p, _, _, ⟨q, c1⟩, u, r0, .start hf r0, a1, asks_clean ⟨hq, ?_⟩, rfl, a3, hed, hq, ?_, ?_⟩
  · intro ops' ho
    rw [show (exEnv keptLibs).strict = false from rfl, lifeWire_read] at ho
    cases ho
    exact once
  · rw [a2]; exact hm
  · rw [a2]; exact of_decide_eq_true (Option.some.inj hleft)

/-- What the theorems say of it: the disk holds the changed project, every answer is what the disk holds, and a second server starts and shows the same. -/
example : ∃ s0 hist t s1, Starts (exEnv keptLibs) exGood c!"/p/src" c!"/p" s0 ∧ Art.Runs (exEnv keptLibs) s0 hist t ∧ editable t.value.project = [exReqA, exImB'.clean, exImC] ∧
    Holds (exEnv keptLibs) c!"/p" exS t.disk t.value.project ∧ Starts (exEnv keptLibs) t.disk c!"/p/src" c!"/p" s1 ∧
    foldCase s1.value.project = foldCase t.value.project := by
  obtain ⟨c, p, s0, hist, w, t, r0, hst, hr, hc, -, hv, hed, -, -, h1, h2, h3⟩ := life_case
  have H := C74_served (life_holds r0) sess_apart hst hr hc
  have r1 := readNow_reads (L := keptLibs) (hash := exId) (ncpu := 4) H.settings h2 h3
  obtain ⟨c2, q2, e, -⟩ := H.reads 4 _ r1
  rw [e] at r1
  exact ⟨s0, hist, t, _, hst, hr, by rw [hv]; exact hed, H, .start h1 r1, C74_restart (life_holds r0) sess_apart hst hr hc (.start (E := exEnv keptLibs) h1 r1)⟩

/-- The modification alone. -/
example : ∃ c q fs', Modifies keptLibs (fun _ => some exRaw) exId (fun _ => []) 4 exGood c!"/p" exOps (some (.ok (c, q))) fs' ∧ Holds (exEnv keptLibs) c!"/p" exS fs' q := by
  obtain ⟨c, p, s0, hist, w, t, r0, -, -, -, -, -, -, hq, hm, -⟩ := life_case
  obtain ⟨_, _, _, _, _, ap, hl, once, _⟩ := exKept
  exact ⟨_, _, _, hm, C74_modify (E := exEnv keptLibs) (life_holds r0) ap hl once hm hq⟩

/-- A life: a server that changes the project, then `art init` in `/`, then a second server. -/
theorem life_long : ∃ (c : Categorized) (p : Project) (w : ProjectResult) (fs' : FS) (q : Project), ReadsProject keptLibs (fun _ => some exRaw) exId 4 exGood c!"/p" (.ok (c, p)) ∧ Life sessSetup c!"/p" exS exGood p fs' q ∧
    editable w.project = [exReqA, exImB'.clean, exImC] ∧ foldCase q = foldCase w.project := by
  obtain ⟨c, p, s0, hist, w, t, r0, hst, hr, hc, -, hv, hed, -, -, h1, h2, h3⟩ := life_case
  have l1 : Life sessSetup c!"/p" exS exGood p t.disk t.value.project := .serve (S := sessSetup) .start hst hr hc
  have H := C74_life (S := sessSetup) caseSite_good (life_holds r0) sess_apart l1
  have r1 := readNow_reads (L := keptLibs) (hash := exId) (ncpu := 4) H.settings h2 h3
  obtain ⟨c2, q2, e, hf⟩ := H.reads 4 _ r1
  rw [e] at r1
  have l2 : Life sessSetup c!"/p" exS exGood p t.disk q2 := .serve (S := sessSetup) (s0 := Server.init t.disk ⟨q2, c2⟩) l1 (.start h1 r1) .nil nofun
  have hw : workDir t.disk c!"" none = some c!"" := rfl
  have hi : Ends sessSetup t.disk c!"" (.init 0 none) (initRun t.disk c!"").1 (initRun t.disk c!"").2 := by
    simp only [Ends, hw]
  exact ⟨c, p, w, _, q2, r0, .command l2 hi nofun (sess_init hw), hed, hf.trans (by rw [hv])⟩

example : ∃ c p fs' q, ReadsProject keptLibs (fun _ => some exRaw) exId 4 exGood c!"/p" (.ok (c, p)) ∧ Life sessSetup c!"/p" exS exGood p fs' q ∧
    Holds (exEnv keptLibs) c!"/p" exS fs' q := by
  obtain ⟨c, p, w, fs', q, r0, hl, -⟩ := life_long
  exact ⟨c, p, fs', q, r0, hl, C74_life (S := sessSetup) caseSite_good (life_holds r0) sess_apart hl⟩

/-- `art fmt` in a life. -/
example : ∃ c p fs', ReadsProject keptLibs (fun _ => some exRaw) exId 4 exGood c!"/p" (.ok (c, p)) ∧ Life sessSetup c!"/p" exS exGood p fs' p ∧
    Holds (exEnv keptLibs) c!"/p" exS fs' p := by
  obtain ⟨c, p, fs1, fs2, hr, hcol, hk, hf, -⟩ := sess_case
  have l : Life sessSetup c!"/p" exS exGood p fs1 p := .format (S := sessSetup) .start rfl exGood_repo hf hcol hk
  exact ⟨c, p, fs1, hr, l, C74_life (S := sessSetup) caseSite_good (life_holds hr) sess_apart l⟩

/-- An answer to a request to read. -/
example : ∃ s0 t u w, Starts (exEnv keptLibs) exGood c!"/p/src" c!"/p" s0 ∧ Art.Runs (exEnv keptLibs) s0 [.arrive 0 (.read none), .lock 0] t ∧
    Art.Step (exEnv keptLibs) t (.finish 0 (.read none) (.success w)) u ∧ Holds (exEnv keptLibs) c!"/p" exS u.disk w.project := by
  obtain ⟨c, p, r0⟩ := exGood_kept_reads
  have hf := exGood_repo
  have h0 := life_holds r0
  have hst : Starts (exEnv keptLibs) exGood c!"/p/src" c!"/p" (Server.init exGood ⟨p, c⟩) := .start hf r0
  generalize exGood = g at r0 hf h0 hst ⊢
  have hr : Art.Runs (exEnv keptLibs) (Server.init g ⟨p, c⟩) [.arrive 0 (.read none), .lock 0] _ :=
    .cons (.arrive rfl rfl) (.cons (.lock (r := .read none) rfl rfl nofun rfl rfl) .nil)
  refine ⟨_, _, _, ⟨p, c⟩, hst, hr, .work (out := (.success ⟨p, c⟩, ⟨p, c⟩)) rfl rfl rfl (.read (Or.inl rfl)), ?_⟩
  refine C74_answer h0 sess_apart hst hr ?_ (.work (out := (.success ⟨p, c⟩, ⟨p, c⟩)) rfl rfl rfl (.read (Or.inl rfl))) trivial
  intro e he
  simp only [List.mem_cons, List.not_mem_nil, or_false] at he
  rcases he with rfl | rfl <;> trivial

end Cli
end Art
