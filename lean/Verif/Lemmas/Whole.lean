import Verif.Spec.Whole
import Verif.Lemmas.FrontendOrigin
import Verif.Props.Serve

/-! Lemmas for C53. -/

namespace Art
namespace Whole
open Spec

section
variable {E : Env} {nd : Char → Bool} {lim : Nat} {S S' S0 S1 S2 : Sys} {tr tr' : List Ev}

theorem Runs.append (h : Runs E nd lim S tr S1) (h' : Runs E nd lim S1 tr' S2) : Runs E nd lim S (tr ++ tr') S2 := by
  induction h' with
  | nil => simpa using h
  | snoc _ st ih => rw [← List.append_assoc]; exact .snoc ih st

theorem Runs.split : ∀ {h2 : List Ev} {u : Sys}, Runs E nd lim S (tr ++ h2) u → ∃ t, Runs E nd lim S tr t ∧ Runs E nd lim t h2 u := by
  intro h2
  induction h2 using List.reverseRecOn with
  | nil => intro u h; exact ⟨u, by simpa using h, .nil⟩
  | append_singleton l e ih =>
    intro u h
    rw [← List.append_assoc] at h
    generalize hg : tr ++ l ++ [e] = g at h
    cases h with
    | nil => simp at hg
    | snoc h st =>
      obtain ⟨e1, e2⟩ := List.append_inj' hg rfl
      cases e1
      cases e2
      obtain ⟨t, a, b⟩ := ih h
      exact ⟨t, a, .snoc b st⟩

theorem Runs.empty (h : Runs E nd lim S [] S1) : S1 = S := by
  generalize hg : ([] : List Ev) = l at h
  cases h with
  | nil => rfl
  | snoc => simp at hg

theorem Runs.first {e : Ev} (h : Runs E nd lim S (e :: tr) S2) : ∃ t, Step E nd lim S e t ∧ Runs E nd lim t tr S2 := by
  have h : Runs E nd lim S ([e] ++ tr) S2 := h
  obtain ⟨t, r1, r2⟩ := h.split
  generalize hg : [e] = l at r1
  cases r1 with
  | nil => cases hg
  | snoc h st =>
    obtain ⟨e1, e2⟩ := List.append_inj' (s₁ := []) hg rfl
    cases e2
    subst e1
    rw [h.empty] at st
    exact ⟨_, st, r2⟩

/-! ## the parts of a history -/

/-- What the server does in a history of the whole is a history of the server. -/
theorem runs_server (h : Runs E nd lim S tr S') : Art.Runs E S.server (tr.flatMap Ev.ofServer) S'.server := by
  induction h with
  | nil => exact .nil
  | @snoc h t e u hr st ih =>
    rw [List.flatMap_append]
    cases st with
    | page => simpa [Ev.ofServer, Sys.setPage] using ih
    | initial => simpa [Ev.ofServer, Sys.setPage] using ih
    | request _ _ _ hs => simpa [Ev.ofServer] using Art.Runs.snoc ih hs
    | answer _ hs _ _ => simpa [Ev.ofServer] using Art.Runs.snoc ih hs
    | fail => simpa [Ev.ofServer, Sys.setPage] using ih
    | server hs => simpa [Ev.ofServer] using Art.Runs.snoc ih hs

/-- What a page does in a history of the whole is a history of the page. -/
theorem runs_page (k : Nat) (h : Runs E nd lim S tr S') : Web.Runs nd lim (S.pages k) (tr.flatMap (Ev.ofPage k)) (S'.pages k) := by
  have on : ∀ {t : Sys} {l : List Web.Event} {j w e}, Web.Runs nd lim (S.pages k) l (t.pages k) → Web.Step nd lim (t.pages j) e w →
      Web.Runs nd lim (S.pages k) (l ++ (if j = k then [e] else [])) ((t.setPage j w).pages k) := by
    intro t l j w e hl hs
    by_cases hj : j = k
    · subst hj
      simp only [Sys.setPage, if_true]
      exact .snoc hl hs
    · have : ¬ k = j := fun h => hj h.symm
      simpa [Sys.setPage, hj, this] using hl
  induction h with
  | nil => exact .nil _
  | @snoc h t e u hr st ih =>
    rw [List.flatMap_append]
    cases st with
    | page hs _ => simpa [Ev.ofPage] using on ih hs
    | initial hs => simpa [Ev.ofPage] using on ih hs
    | request => simpa [Ev.ofPage] using ih
    | answer _ _ _ hs => simpa [Ev.ofPage] using on ih hs
    | fail hs => simpa [Ev.ofPage] using on ih hs
    | server => simpa [Ev.ofPage] using ih

/-! ## requests and threads -/

/-- A thread handles one request only. -/
theorem arrive_unique {fs : FS} {v : ProjectResult} {hist : List Art.Event} {s : Server} (h : Art.Runs E (Server.init fs v) hist s) {i : Nat} {r r' : Request}
    (h1 : Art.Event.arrive i r ∈ hist) (h2 : Art.Event.arrive i r' ∈ hist) : r = r' := by
  induction h with
  | nil => simp at h1
  | @snoc hist s e t hr st ih =>
    have g := good_of hr
    have new : ∀ {r}, e = .arrive i r → ∀ r', Art.Event.arrive i r' ∉ hist := by
      intro r he
      subst he
      cases st with
      | arrive _ hi => exact g.idle i hi
    rcases List.mem_append.1 h1 with h1 | h1 <;> rcases List.mem_append.1 h2 with h2 | h2
    · exact ih h1 h2
    · exact absurd h1 (new (List.mem_singleton.1 h2).symm _)
    · exact absurd h2 (new (List.mem_singleton.1 h1).symm _)
    · have := (List.mem_singleton.1 h1).trans (List.mem_singleton.1 h2).symm
      cases this
      rfl

/-- A linked thread got its request from that page. -/
theorem linked {s : Server} {p0 : Web.Proj} {v : Nat → View} (h : Runs E nd lim (Sys.init s p0 v) tr S) {i k : Nat} {q : Web.Req} (hl : S.link i = some (k, q)) :
    ∃ r, wireReq q = some r ∧ Ev.request k q i r ∈ tr := by
  generalize hs0 : Sys.init s p0 v = S0 at h
  induction h with
  | nil => subst hs0; cases hl
  | @snoc h t e u hr st ih =>
    have up : t.link i = some (k, q) → ∃ r, wireReq q = some r ∧ Ev.request k q i r ∈ h ++ [e] := by
      intro h
      obtain ⟨r, h1, h2⟩ := ih h
      exact ⟨r, h1, List.mem_append_left _ h2⟩
    cases st with
    | @request k' q' i' r' _ h1 h2 h3 h4 =>
      simp only at hl
      split at hl
      · rename_i e
        subst e
        cases hl
        exact ⟨r', h2, by simp⟩
      · exact up hl
    | _ => exact up hl

theorem step_not_idle {s t : Server} {e : Art.Event} (h : Art.Step E s e t) {i : Nat} (hi : s.threads i ≠ .idle) : t.threads i ≠ .idle := by
  have set : ∀ (j : Nat) (x : Thread), x ≠ .idle → (s.set j x).threads i ≠ .idle := by
    intro j x hx
    rw [set_threads]
    split
    · exact hx
    · exact hi
  cases h with
  | arrive => exact set _ _ nofun
  | reject => exact set _ _ nofun
  | lock => exact set _ _ nofun
  | poisoned => exact set _ _ nofun
  | work => exact set _ _ nofun
  | send => exact set _ _ nofun
  | _ => exact hi

/-- The page that a thread works for does not change. -/
theorem link_stable (h : Runs E nd lim S tr S') {i : Nat} (hi : S.server.threads i ≠ .idle) :
    S'.link i = S.link i ∧ S'.server.threads i ≠ .idle := by
  induction h with
  | nil => exact ⟨rfl, hi⟩
  | @snoc h t e u hr st ih =>
    obtain ⟨h1, h2⟩ := ih
    cases st with
    | page => exact ⟨h1, h2⟩
    | initial => exact ⟨h1, h2⟩
    | @request _ _ j _ _ _ _ _ hs =>
      refine ⟨?_, step_not_idle hs h2⟩
      have : i ≠ j := by
        rintro rfl
        cases hs with
        | arrive _ hi' => exact h2 hi'
      simp only
      rw [if_neg this, h1]
    | answer _ hs _ _ => exact ⟨h1, step_not_idle hs h2⟩
    | fail => exact ⟨h1, h2⟩
    | server hs => exact ⟨h1, step_not_idle hs h2⟩

theorem finish_thread {s t : Server} {i : Nat} {r : Request} {a : Reply} (h : Art.Step E s (.finish i r a) t) :
    s.threads i = .waiting r ∨ s.threads i = .working r := by
  cases h with
  | reject _ h => exact Or.inl h
  | poisoned _ h => exact Or.inl h
  | work _ h => exact Or.inr h

/-- An answer that a page gets is the answer of the server to its request. -/
theorem answered {fs : FS} {val : ProjectResult} {p0 : Web.Proj} {v : Nat → View} (h : Runs E nd lim (Sys.init (Server.init fs val) p0 v) tr S)
    {k i : Nat} {q : Web.Req} {a : Reply} {m : Web.Msg} (ha : Ev.answer k q i a m ∈ tr) :
    Becomes E.strict q a m ∧ ∃ r S1 S2, wireReq q = some r ∧ Answered E nd lim (Sys.init (Server.init fs val) p0 v) tr S k q r a m S1 S2 := by
  obtain ⟨a0, b0, rfl⟩ := List.append_of_mem ha
  obtain ⟨Sa, r1, r2⟩ := h.split
  obtain ⟨Sb, st, r3⟩ := r2.first
  cases st with
  | @answer _ _ _ _ _ t w hl hsend hb hweb =>
    refine ⟨hb, ?_⟩
    have g := good_of (runs_server r1)
    have hrdy : Sa.server.threads i = .ready a := by cases hsend; assumption
    obtain ⟨r, hr⟩ := g.ready i a hrdy
    obtain ⟨ev, hev, hcall⟩ := List.mem_filterMap.1 hr
    have hev' : ev = .finish i r a := by
      cases ev <;> simp [Event.call?] at hcall
      obtain ⟨rfl, rfl, rfl⟩ := hcall
      rfl
    subst hev'
    obtain ⟨ev, hmem, hin⟩ := List.mem_flatMap.1 hev
    have : ev = .server (.finish i r a) := by
      cases ev <;> simp [Ev.ofServer] at hin
      rw [hin]
    subst this
    obtain ⟨x, y, rfl⟩ := List.append_of_mem hmem
    obtain ⟨T1, q1, q2⟩ := r1.split
    obtain ⟨T2, st, q3⟩ := q2.first
    have hfin : Art.Step E T1.server (.finish i r a) T2.server := by cases st; assumption
    have hth := finish_thread hfin
    have hne : T1.server.threads i ≠ .idle := by rcases hth with h | h <;> rw [h] <;> simp
    have hlk : T1.link i = some (k, q) := by
      rw [← (link_stable (q2) hne).1]
      exact hl
    obtain ⟨r', hr', hreq⟩ := linked q1 hlk
    have g1 := good_of (runs_server q1)
    have e1 : Art.Event.arrive i r ∈ x.flatMap Ev.ofServer := by
      rcases hth with h | h
      · exact g1.waiting i r h
      · exact (g1.working i r h).1
    have e2 : Art.Event.arrive i r' ∈ x.flatMap Ev.ofServer := List.mem_flatMap.2 ⟨_, hreq, by simp [Ev.ofServer]⟩
    have er := arrive_unique (runs_server q1) e1 e2
    subst er
    have hst : Step E nd lim Sa (.answer k q i a m) { Sa.setPage k w with server := t } := Step.answer hl hsend hb hweb
    refine ⟨r, T1, T2, hr', i, x, y ++ .answer k q i a m :: b0, by simp, hreq, by simp, q1, st, ?_⟩
    have : y ++ Ev.answer k q i a m :: b0 = (y ++ [Ev.answer k q i a m]) ++ b0 := by simp
    rw [this]
    exact Runs.append (.snoc q3 hst) r3

/-! ## what is sent is what is read -/

theorem wireName_raw (n : Name) : wireName n.raw = .ok n := by
  unfold wireName
  rw [Name.fromStr_raw_self]

theorem wireNames_raw (l : List Name) : Res.mapM' wireName (l.map Name.raw) = .ok l := by
  rw [mapM'_of_map, mapM'_map (f' := fun n => n) (fun n _ => wireName_raw n)]
  simp

theorem wireIm_read {a : ArtifactIm} (h : ISet.Nodup a.partof) : (wireIm a).read = .ok a := by
  unfold WireIm.read wireIm
  simp only [wireName_raw, wireNames_raw, Res.bind_ok, ISet.collect_of_nodup h]
  rfl

theorem wireOp_read (strict : Bool) {op : ArtifactOp} (h : ∀ a, Brings op a → ISet.Nodup a.partof) : (wireOp op).read strict = .ok op := by
  cases op with
  | create a =>
    simp only [wireOp, WireOp.read, wireIm_read (h a (Or.inl rfl)), Res.bind_ok]
    rfl
  | update a id =>
    simp only [wireOp, WireOp.read, wireIm_read (h a (Or.inr ⟨_, rfl⟩)), C31_roundtrip, Res.bind_ok]
    rfl
  | delete n id =>
    simp only [wireOp, WireOp.read, wireName_raw, C31_roundtrip, Res.bind_ok]
    rfl

theorem wireArt_read (strict : Bool) {a : Artifact} (h : ISet.Nodup a.partof) : (wireArt a).read strict = .ok (look a) := by
  unfold WireArt.read wireArt
  simp only [C31_roundtrip, wireName_raw, wireNames_raw, Res.bind_ok, ISet.collect_of_nodup h]
  rfl

/-! ## the ids of loaded artifacts -/

theorem loads_ids {hash : ArtifactIm → HashIm} {l : List ArtifactIm} {code : IMap Name ImplCode} {arts : IMap Name Artifact} (hl : (joinArtifacts l).lints = [])
    (hn : ∀ a ∈ l, ISet.Nodup a.partof) (h : Loads hash (joinArtifacts l).arts code (joinArtifacts l).files arts) :
    ∀ x ∈ arts, x.2.id = hash x.2.toIm := by
  intro x hx
  have e := loads_toIm hl hn h
  obtain ⟨f1, f2⟩ := C11_present _ hl
  have inp := joinArtifacts_input l
  obtain ⟨im, as⟩ := (h.spec inp).2.2.2.2.2.1 x.2 (List.mem_map.2 ⟨x, hx, rfl⟩)
  have hm : x.2.toIm ∈ l.map ArtifactIm.clean := by rw [← e]; exact List.mem_map.2 ⟨x, hx, rfl⟩
  obtain ⟨a, ha, hc⟩ := List.mem_map.1 hm
  have hmem : (a.name, a.clean) ∈ (joinArtifacts l).arts := by rw [f2]; exact List.mem_map.2 ⟨a, ha, rfl⟩
  have hname : x.2.name = a.name := by
    have := congrArg ArtifactIm.name hc
    exact this.symm
  have h1 := as.mem
  rw [hname, IMap.get?_of_mem inp.nodup hmem] at h1
  rw [as.id, ← Option.some.inj h1, hc]

/-- What holds of every project that the server has. -/
structure Neat (hash : ArtifactIm → HashIm) (p : Project) : Prop where
  arts : IMap.Nodup p.artifacts
  links : ∀ x ∈ p.artifacts, ISet.Nodup x.2.partof
  ids : ∀ x ∈ p.artifacts, x.2.id = hash x.2.toIm
  names : ∀ x ∈ p.artifacts, x.2.name = x.1

theorem neat_sort {hash : ArtifactIm → HashIm} {p : Project} (h : Neat hash p) : Neat hash p.sort := by
  have hm : ∀ x ∈ p.sort.artifacts, ∃ y ∈ p.artifacts, x = (y.1, y.2.sort) := by
    intro x hx
    obtain ⟨y, hy, rfl⟩ := List.mem_map.1 hx
    exact ⟨y, (mem_sortOn _).1 hy, rfl⟩
  refine ⟨?_, ?_, ?_, ?_⟩
  · have := (IMap.nodup_perm (sortOn_perm (fun x : Name × Artifact => x.1.keyStr) p.artifacts)).2 h.arts
    exact IMap.nodup_of_fst this (by show List.map _ (List.map _ _) = _; rw [List.map_map]; rfl)
  · intro x hx
    obtain ⟨y, hy, rfl⟩ := hm x hx
    exact nodup_sortNames (h.links y hy)
  · intro x hx
    obtain ⟨y, hy, rfl⟩ := hm x hx
    rw [toIm_sort (h.links y hy)]
    exact h.ids y hy
  · intro x hx
    obtain ⟨y, hy, rfl⟩ := hm x hx
    exact h.names y hy

theorem loads_neat {hash : ArtifactIm → HashIm} {l : List ArtifactIm} {code : IMap Name ImplCode} {arts : IMap Name Artifact} (hl : (joinArtifacts l).lints = [])
    (hn : ∀ a ∈ l, ISet.Nodup a.partof) (h : Loads hash (joinArtifacts l).arts code (joinArtifacts l).files arts) (p : Project) (hp : p.artifacts = arts) :
    Neat hash p := by
  subst hp
  have inp := joinArtifacts_input l
  have sp := h.spec inp
  refine ⟨IMap.nodup_of_fst inp.dnodup sp.1, ?_, loads_ids hl hn h, sp.2.1⟩
  intro x hx
  obtain ⟨im, as⟩ := sp.2.2.2.2.2.1 x.2 (List.mem_map.2 ⟨x, hx, rfl⟩)
  exact as.pnodup

theorem read_neat {L : Libs} {readToml : Str → Option SettingsRaw} {hash : ArtifactIm → HashIm} {ncpu : Nat} {fs : FS} {base : FilePath} {c : Categorized} {p : Project}
    (h : ReadsProject L readToml hash ncpu fs base (.ok (c, p))) : Neat hash p := by
  obtain ⟨raw, path, s, r, arts, ls, _, _, ha, he, hl, _, rfl, _⟩ := reads_parts h
  have hj : (joinArtifacts r.arts).lints = [] := ((noError_parts ha).1 he).2.2
  exact neat_sort (loads_neat hj (fun a h => (arrives_art ha h).2.2) hl _ rfl)

theorem plans_neat {L : Libs} {hash : ArtifactIm → HashIm} {dbg : ArtifactIm → Str} {c c' : Categorized} {p p' : Project} {ops : List ArtifactOp}
    (hs : ProjectSets p) (hl : LinkSets ops) (h : Plans L hash dbg c p ops (.ok (c', p'))) : Neat hash p' := by
  obtain ⟨_, _, _, _, ims, rfl, hlo, hj, _⟩ := plans_ok h
  exact loads_neat hj (fun a ha => (ims_clean (hash := hash) (dbg := dbg) hs hl a ha).2) hlo _ rfl

/-- A successful modification, in its parts. -/
theorem modifies_ok {L : Libs} {readToml : Str → Option SettingsRaw} {hash : ArtifactIm → HashIm} {dbg : ArtifactIm → Str} {ncpu : Nat} {fs fs' : FS} {base : FilePath}
    {ops : List ArtifactOp} {x : Categorized × Project} (h : Modifies L readToml hash dbg ncpu fs base ops (some (.ok x)) fs') :
    ∃ c q c' p', ReadsProject L readToml hash ncpu fs base (.ok (c, q)) ∧ Plans L hash dbg c q ops (.ok (c', p')) ∧ x.2 = p'.sort := by
  generalize hg : some (Res.ok x) = o at h
  cases h with
  | early => cases hg
  | refused _ _ h3 => exact absurd (Option.some.inj hg).symm (h3 _)
  | crash => cases hg
  | failed => cases hg
  | @done read c p files cfg h1 h2 _ _ _ =>
    cases hg
    obtain ⟨c, q, c', h3, h4⟩ := planned ⟨_, _, h1, h2⟩
    exact ⟨c, q, c', _, h3, h4, rfl⟩

theorem modify_neat {L : Libs} {readToml : Str → Option SettingsRaw} {hash : ArtifactIm → HashIm} {dbg : ArtifactIm → Str} {ncpu : Nat} {fs fs' : FS} {base : FilePath}
    {ops : List ArtifactOp} {x : Categorized × Project} (hl : LinkSets ops) (h : Modifies L readToml hash dbg ncpu fs base ops (some (.ok x)) fs') : Neat hash x.2 := by
  obtain ⟨c, q, c', p', h1, h2, e⟩ := modifies_ok h
  rw [e]
  exact neat_sort (plans_neat (C25_read_sets h1) hl h2)

/-- The project that the server serves, and every project that it answers with, is neat. -/
theorem served_neat {fs : FS} {dir repo : FilePath} {s t : Server} {hist : List Art.Event} (hst : Starts E fs dir repo s) (h : Art.Runs E s hist t) :
    Neat E.hash t.value.project ∧ ∀ i r w, Art.Event.finish i r (.success w) ∈ hist → Neat E.hash w.project := by
  obtain ⟨hf, hr⟩ := hst
  rename_i c p
  induction h with
  | nil => exact ⟨read_neat hr, by simp⟩
  | @snoc h s e t _ st ih =>
    have quiet : (∀ i r w, e ≠ .finish i r (.success w)) → t.value = s.value → Neat E.hash t.value.project ∧
        ∀ i r w, Art.Event.finish i r (.success w) ∈ h ++ [e] → Neat E.hash w.project := by
      intro h1 h2
      rw [h2]
      refine ⟨ih.1, fun i r w hm => ?_⟩
      rcases List.mem_append.1 hm with hm | hm
      · exact ih.2 i r w hm
      · exact absurd (List.mem_singleton.1 hm).symm (h1 i r w)
    cases st with
    | arrive => exact quiet nofun rfl
    | reject => exact quiet nofun rfl
    | lock => exact quiet nofun rfl
    | poisoned => exact quiet nofun rfl
    | @work _ _ _ _ _ _ _ hd =>
      have one : ∀ {v : ProjectResult} {i r}, Neat E.hash v.project → ∀ i' r' w, Art.Event.finish i' r' (.success w) ∈ h ++ [.finish i r (.success v)] → Neat E.hash w.project := by
        intro v i r hv i' r' w hm
        rcases List.mem_append.1 hm with hm | hm
        · exact ih.2 _ _ w hm
        · have := List.mem_singleton.1 hm
          cases this
          exact hv
      cases hd with
      | read => exact ⟨ih.1, one ih.1⟩
      | readBad => exact quiet nofun rfl
      | @reload o hr' =>
        cases o with
        | ok x => exact ⟨read_neat hr', one (read_neat hr')⟩
        | err => exact quiet nofun rfl
        | panic => exact quiet nofun rfl
      | modifyBad => exact quiet nofun rfl
      | modifyUnread => exact quiet nofun rfl
      | modifyPanic => exact quiet nofun rfl
      | @modify _ _ o _ hops hm =>
        cases o with
        | ok x => exact ⟨modify_neat (wire_sets hops) hm, one (modify_neat (wire_sets hops) hm)⟩
        | err => exact quiet nofun rfl
        | panic => exact quiet nofun rfl
    | send => exact quiet nofun rfl
    | edit => exact quiet nofun rfl
    | quit => exact quiet nofun rfl
    | kill => exact quiet nofun rfl
    | die => exact quiet nofun rfl

/-- A neat project can always be read by the page, in whatever order its artifacts come. -/
theorem readShared_neat (strict : Bool) {hash : ArtifactIm → HashIm} {p : Project} (hp : Neat hash p) {l : List (Str × WireArt)} (h : l.Perm (wireProject p)) :
    ∃ P, readShared strict l = .ok P ∧ Shows P p ∧ IMap.Nodup P := by
  have h0 : Res.mapM' (readEntry strict) (wireProject p) = .ok (p.artifacts.map fun x => (x.1, look x.2)) := by
    unfold wireProject
    rw [mapM'_of_map]
    refine mapM'_map fun x hx => ?_
    unfold readEntry
    simp only [wireName_raw, wireArt_read strict (hp.links x hx), Res.bind_ok]
    rfl
  obtain ⟨r, h1, h2⟩ := mapM'_perm h.symm _ h0
  have hn : IMap.Nodup (p.artifacts.map fun x => (x.1, look x.2)) := IMap.nodup_of_fst hp.arts (by rw [List.map_map]; rfl)
  have hn' : IMap.Nodup r := (IMap.nodup_perm h2).1 hn
  refine ⟨r, ?_, h2.symm, hn'⟩
  unfold readShared
  rw [h1]
  simp only [Res.bind_ok, IMap.collect_of_nodup hn']
  rfl

end

end Whole
end Art
