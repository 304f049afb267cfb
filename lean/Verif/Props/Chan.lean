import Verif.Lemmas.ChanRead
import Verif.Spec.Chan
import Verif.Props.Read

/-!
# C65: the threads that read a project
-/

namespace Art.Chan
open Spec

/-! ## the specification of the files that are handled -/

theorem handled_upTo (d : α → Bool) : ∀ (n : Nat) (l : List α), Handled n d l (upTo d n l)
  | 0, l => by
    refine ⟨by simp [upTo], .inr ⟨by simp [upTo], ?_⟩⟩
    intro b x h
    simp [upTo] at h
  | n + 1, [] => ⟨by simp [upTo], .inl ⟨rfl, by simp⟩⟩
  | n + 1, a :: l => by
    rw [upTo]
    cases ha : d a with
    | true =>
      simp only [if_true]
      obtain ⟨h1, h2⟩ := handled_upTo d n l
      refine ⟨by simpa using h1, ?_⟩
      rcases h2 with ⟨h2, h3⟩ | ⟨h2, h3⟩
      · left
        rw [h2, List.countP_cons_of_pos ha]
        exact ⟨rfl, by omega⟩
      · right
        rw [List.countP_cons_of_pos ha]
        refine ⟨by omega, ?_⟩
        intro b x hb
        cases b with
        | nil =>
          simp only [List.nil_append, List.cons.injEq] at hb
          rw [← hb.1]
          exact ha
        | cons y b =>
          simp only [List.cons_append, List.cons.injEq] at hb
          exact h3 b x hb.2
    | false =>
      simp only [Bool.false_eq_true, if_false]
      obtain ⟨h1, h2⟩ := handled_upTo d (n + 1) l
      refine ⟨by simpa using h1, ?_⟩
      rcases h2 with ⟨h2, h3⟩ | ⟨h2, h3⟩
      · left
        rw [h2, List.countP_cons_of_neg (by simp [ha])]
        exact ⟨rfl, by omega⟩
      · right
        rw [List.countP_cons_of_neg (by simp [ha])]
        refine ⟨by omega, ?_⟩
        intro b x hb
        cases b with
        | nil =>
          simp only [List.nil_append, List.cons.injEq] at hb
          rw [hb.2] at h2
          simp at h2
        | cons y b =>
          simp only [List.cons_append, List.cons.injEq] at hb
          exact h3 b x hb.2

/-- There is only one such beginning. -/
theorem handled_unique {d : α → Bool} {n : Nat} {l a b : List α} (ha : Handled n d l a) (hb : Handled n d l b) : a = b := by
  have key : ∀ {x y : List α}, x.countP d = n → (∀ before v, y = before ++ [v] → d v = true) → y.countP d ≤ n → x <+: y → x = y := by
    rintro x y hx hy hc ⟨z, rfl⟩
    rcases List.eq_nil_or_concat z with rfl | ⟨z, v, rfl⟩
    · simp
    · exfalso
      have := hy (x ++ z) v (by simp)
      simp [List.countP_append, this] at hc
      omega
  obtain ⟨pa, ha⟩ := ha
  obtain ⟨pb, hb⟩ := hb
  rcases ha with ⟨rfl, ha⟩ | ⟨ha, ha'⟩
  · rcases hb with ⟨rfl, hb⟩ | ⟨hb, hb'⟩
    · rfl
    · have := pb.sublist.countP_le (p := d)
      omega
  · rcases hb with ⟨rfl, hb⟩ | ⟨hb, hb'⟩
    · have := pa.sublist.countP_le (p := d)
      omega
    · rcases List.prefix_or_prefix_of_prefix pa pb with h | h
      · exact key ha hb' (by omega) h
      · exact (key hb ha' (by omega) h).symm

/-! ## C65 -/

/-- Reading always ends, whatever the scheduler does. -/
theorem C65_ends (L : Libs) (n : Nat) (fs : FS) (s : Settings) : Terminates (Step (readNet L n fs s)) (readNet L n fs s).init := by
  rintro ⟨f, _, hf⟩
  exact (wellFounded_iff_isEmpty_descending_chain.1 (ends (readWeights L n fs s))).elim ⟨f, hf⟩

/-- Reading never gets stuck: in every reachable state in which a thread is not yet over some thread can go on. -/
theorem C65_never_stuck {t : St (RTh n) RCh Item} (h : Reach (readNet L n fs s) t) (ho : ¬ t.Over) : ∃ t', Step (readNet L n fs s) t t' :=
  progress (read_wired L n fs s) (fun _ => show 0 < 128 by decide) h ho

theorem exists_over {t : St (RTh n) RCh Item} (h : Reach (readNet L n fs s) t) :
    ∃ t', Relation.ReflTransGen (Step (readNet L n fs s)) t t' ∧ t'.Over := by
  induction t using (ends (readWeights L n fs s)).induction with
  | _ t ih =>
    by_cases ho : t.Over
    · exact ⟨t, .refl, ho⟩
    · obtain ⟨t1, h1⟩ := C65_never_stuck h ho
      obtain ⟨t', h2, h3⟩ := ih t1 h1 (Relation.ReflTransGen.tail h h1)
      exact ⟨t', Relation.ReflTransGen.head h1 h2, h3⟩

/-- Every execution can be finished, and then all threads are over. -/
theorem C65_finishes {t : St (RTh n) RCh Item} (h : Reach (readNet L n fs s) t) :
    ∃ t', Relation.ReflTransGen (Step (readNet L n fs s)) t t' ∧ t'.Over ∧ Reach (readNet L n fs s) t' := by
  obtain ⟨t', h1, h2⟩ := exists_over h
  exact ⟨t', h1, h2, Relation.ReflTransGen.trans h h1⟩

theorem code_walk_all {t : St (RTh n) RCh Item} (h : Reach (readNet L n fs s) t) (ho : t.Over)
    (hc : (walkCode fs s).countP (fun p => (codeSent L fs p).dead) < 4) :
    (t.th .codeWalk).ran = walkOps L fs (codeFilter s.excludeCodePaths) .codePath s.codePaths := by
  have pc := ((code_pool L n fs s).over h ho).2.2.1
  have e : ((readNet L n fs s).prog .codeWalk).first = walkOps L fs (codeFilter s.excludeCodePaths) .codePath s.codePaths := rfl
  rw [e, walkOps_paths L fs _ .codePath (by simp), List.countP_map] at pc
  exact pc hc

theorem art_walk_all {t : St (RTh n) RCh Item} (h : Reach (readNet L n fs s) t) (ho : t.Over)
    (hc : (walkArtifacts fs s).countP (fun p => (artSent L s.pre fs p).dead) < n) :
    (t.th .artWalk).ran = walkOps L fs (artFilter s.excludeArtifactPaths) .artPath s.artifactPaths := by
  have pc := ((art_pool L n fs s).over h ho).2.2.1
  have e : ((readNet L n fs s).prog .artWalk).first = walkOps L fs (artFilter s.excludeArtifactPaths) .artPath s.artifactPaths := rfl
  rw [e, walkOps_paths L fs _ .artPath (by simp), List.countP_map] at pc
  exact pc hc

/-- What has arrived when all threads are over does not depend on the scheduler, except for the order: everything from the files up to the
one on which the last worker dies. -/
theorem C65_received {t : St (RTh n) RCh Item} (h : Reach (readNet L n fs s) t) (ho : t.Over) :
    ∃ code arts lints lints', Handled 4 (fun p => (codeSent L fs p).dead) (walkCode fs s) code ∧
      Handled n (fun p => (artSent L s.pre fs p).dead) (walkArtifacts fs s) arts ∧
      (runOf t).locs.Perm (code.flatMap fun p => (codeSent L fs p).items) ∧
      (runOf t).arts.Perm (arts.flatMap fun p => (artSent L s.pre fs p).items) ∧
      lints <+: walkLints L fs (codeFilter s.excludeCodePaths) s.codePaths ∧
      (code = walkCode fs s → (walkCode fs s).countP (fun p => (codeSent L fs p).dead) < 4 →
        lints = walkLints L fs (codeFilter s.excludeCodePaths) s.codePaths) ∧
      lints' <+: walkLints L fs (artFilter s.excludeArtifactPaths) s.artifactPaths ∧
      (arts = walkArtifacts fs s → (walkArtifacts fs s).countP (fun p => (artSent L s.pre fs p).dead) < n →
        lints' = walkLints L fs (artFilter s.excludeArtifactPaths) s.artifactPaths) ∧
      (runOf t).lints.Perm (lints ++ code.flatMap (fun p => (codeSent L fs p).lints) ++ lints' ++ arts.flatMap (fun p => (artSent L s.pre fs p).lints) ++
        (joinLocations (runOf t).locs).2 ++ (joinArtifacts (runOf t).arts).lints) := by
  have pc : (t.th .codeWalk).ran <+: walkOps L fs (codeFilter s.excludeCodePaths) .codePath s.codePaths := ((code_pool L n fs s).over h ho).2.1
  have pa : (t.th .artWalk).ran <+: walkOps L fs (artFilter s.excludeArtifactPaths) .artPath s.artifactPaths := ((art_pool L n fs s).over h ho).2.1
  have hc : Handled 4 (fun p => (codeSent L fs p).dead) (walkCode fs s) (codeHandled L fs s) := handled_upTo _ _ _
  have ha : Handled n (fun p => (artSent L s.pre fs p).dead) (walkArtifacts fs s) (artHandled L n fs s) := handled_upTo _ _ _
  have hl := lints_got h ho
  refine ⟨codeHandled L fs s, artHandled L n fs s, lintsOf ((t.th .codeWalk).ran.filterMap (toChan .lint)),
    lintsOf ((t.th .artWalk).ran.filterMap (toChan .lint)), hc, ha, locs_got h ho, arts_got h ho,
    walk_lints (by simp) pc, fun _ hn => ?_, walk_lints (by simp) pa, fun _ hn => ?_, ?_⟩
  · rw [code_walk_all h ho hn, walkOps_lints L fs _ .codePath (by simp), lintsOf_map]
  · rw [art_walk_all h ho hn, walkOps_lints L fs _ .artPath (by simp), lintsOf_map]
  · exact hl

/-- If a worker of each kind survives then everything arrives that `Arrives` asks for, so that all theorems about reading hold for all executions of
the threads. -/
theorem C65_arrives {t : St (RTh n) RCh Item} (h : Reach (readNet L n fs s) t) (ho : t.Over)
    (hc : (walkCode fs s).countP (fun f => (codeSent L fs f).dead) < 4)
    (ha : (walkArtifacts fs s).countP (fun f => (artSent L s.pre fs f).dead) < n) : Arrives L n fs s (runOf t) := by
  obtain ⟨code, arts, lints, lints', h1, h2, h3, h4, _, h5, _, h6, h7⟩ := C65_received h ho
  obtain rfl := handled_unique h1 ⟨List.prefix_refl _, .inl ⟨rfl, hc⟩⟩
  obtain rfl := handled_unique h2 ⟨List.prefix_refl _, .inl ⟨rfl, ha⟩⟩
  refine ⟨hc, ha, h3, h4, ?_⟩
  rw [h5 rfl hc, h6 rfl ha] at h7
  exact h7

/-- The same, for the outcome of reading. -/
theorem C65_reads {t : St (RTh n) RCh Item} (h : Reach (readNet L n fs s) t) (ho : t.Over)
    (hc : (walkCode fs s).countP (fun f => (codeSent L fs f).dead) < 4)
    (ha : (walkArtifacts fs s).countP (fun f => (artSent L s.pre fs f).dead) < n) {hash : ArtifactIm → HashIm} (hg : (runOf t).Gives L hash s out) :
    ReadsWith L hash n fs s out := ⟨runOf t, C65_arrives h ho hc ha, hg⟩

/-- Two executions receive the same, up to the order, also if all workers die. -/
theorem C65_same {t t' : St (RTh n) RCh Item} (h : Reach (readNet L n fs s) t) (ho : t.Over) (h' : Reach (readNet L n fs s) t') (ho' : t'.Over) :
    (runOf t).locs.Perm (runOf t').locs ∧ (runOf t).arts.Perm (runOf t').arts := by
  obtain ⟨code, arts, _, _, h1, h2, h3, h4, _⟩ := C65_received h ho
  obtain ⟨code', arts', _, _, h1', h2', h3', h4', _⟩ := C65_received h' ho'
  obtain rfl := handled_unique h1 h1'
  obtain rfl := handled_unique h2 h2'
  exact ⟨h3.trans h3'.symm, h4.trans h4'.symm⟩

/-! ## an example, and what is lost -/

/-- Five source files, of which all but the last have a reference on which the scanner panics. -/
def exFive : FS :=
  [(c!"", .dir), (c!"/p", .dir), (c!"/p/.art", .dir), (c!"/p/.art/settings.toml", .file (.text c!"")), (c!"/p/design", .dir),
   (c!"/p/design/a.md", .file (.text c!"# SPC-a\nhow\n")), (c!"/p/src", .dir),
   (c!"/p/src/1.rs", .file (.text ['#', longS, 'P', 'C', '-', 'x'])), (c!"/p/src/2.rs", .file (.text ['#', longS, 'P', 'C', '-', 'x'])),
   (c!"/p/src/3.rs", .file (.text ['#', longS, 'P', 'C', '-', 'x'])), (c!"/p/src/4.rs", .file (.text ['#', longS, 'P', 'C', '-', 'x'])),
   (c!"/p/src/5.rs", .file (.text c!"// #SPC-a"))]

/-- Four files are enough to lose all others: the reference in the fifth file is found by no execution, and there is no lint either. -/
theorem C65_lost : (∃ p ∈ walkCode exFive exS, (codeSent exLibs exFive p).items ≠ []) ∧
    (∃ t, Reach (readNet exLibs 4 exFive exS) t ∧ t.Over) ∧
    ∀ t, Reach (readNet exLibs 4 exFive exS) t → t.Over → (runOf t).locs = [] ∧ (runOf t).lints = [] ∧ (runOf t).arts.map (·.name.raw) = [c!"SPC-a"] := by
  refine ⟨⟨c!"/p/src/5.rs", by decide +kernel, by decide +kernel⟩, ?_, ?_⟩
  · obtain ⟨t, _, h1, h2⟩ := C65_finishes (n := 4) (L := exLibs) (fs := exFive) (s := exS) .refl
    exact ⟨t, h2, h1⟩
  · intro t h ho
    obtain ⟨code, arts, lints, lints', h1, h2, h3, h4, h5, _, h6, _, h7⟩ := C65_received h ho
    obtain rfl := handled_unique h1 (handled_upTo _ _ _)
    obtain rfl := handled_unique h2 (handled_upTo _ _ _)
    rw [show (upTo (fun p => (codeSent exLibs exFive p).dead) 4 (walkCode exFive exS)).flatMap (fun p => (codeSent exLibs exFive p).items) = [] by
      decide +kernel] at h3
    have hl := h3.eq_nil
    have len : ((upTo (fun p => (artSent exLibs exS.pre exFive p).dead) 4 (walkArtifacts exFive exS)).flatMap fun p => (artSent exLibs exS.pre exFive p).items).length = 1 := by
      decide +kernel
    obtain ⟨a, ha⟩ := List.length_eq_one_iff.1 len
    rw [ha] at h4
    have harts : (runOf t).arts = (upTo (fun p => (artSent exLibs exS.pre exFive p).dead) 4 (walkArtifacts exFive exS)).flatMap
        fun p => (artSent exLibs exS.pre exFive p).items := by rw [ha, List.perm_singleton.1 h4]
    refine ⟨hl, ?_, ?_⟩
    · rw [hl, harts] at h7
      have e1 : walkLints exLibs exFive (codeFilter exS.excludeCodePaths) exS.codePaths = [] := by decide +kernel
      have e2 : walkLints exLibs exFive (artFilter exS.excludeArtifactPaths) exS.artifactPaths = [] := by decide +kernel
      rw [e1, List.prefix_nil] at h5
      rw [e2, List.prefix_nil] at h6
      rw [h5, h6] at h7
      refine List.Perm.eq_nil (h7.trans (List.Perm.of_eq ?_))
      decide +kernel
    · rw [harts]
      decide +kernel

/-- The hypotheses of `C65_arrives` hold for a project with a file on which a worker dies. -/
example : ((walkCode (exFs c!"# SPC-a\n" c!"" ['#', longS, 'P', 'C', '-', 'x'] c!"// #SPC-a") exS).countP
      (fun f => (codeSent exLibs (exFs c!"# SPC-a\n" c!"" ['#', longS, 'P', 'C', '-', 'x'] c!"// #SPC-a") f).dead) = 1) ∧
    (walkArtifacts (exFs c!"# SPC-a\n" c!"" ['#', longS, 'P', 'C', '-', 'x'] c!"// #SPC-a") exS).countP
      (fun f => (artSent exLibs exS.pre (exFs c!"# SPC-a\n" c!"" ['#', longS, 'P', 'C', '-', 'x'] c!"// #SPC-a") f).dead) < 4 := by decide +kernel

/-- The threads do something: in the first step a walk sends a file. -/
example : ∃ t, Step (readNet exLibs 4 exFive exS) (readNet exLibs 4 exFive exS).init t ∧ t.queue .artPath = [.path c!"/p/design/a.md"] := by
  refine ⟨_, Step.send _ .artWalk .artPath (.path c!"/p/design/a.md") [] (by rfl) rfl ⟨.main, rfl⟩ (by decide), by rfl⟩

end Art.Chan
