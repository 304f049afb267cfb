import Verif.Lemmas.Http
import Verif.Props.Wire

/-!
# Property C76: who can talk to the server
-/

namespace Art.Http
open Art.Spec Whole

/-! ## what a request is taken for -/

/-- Requests that come to `handle_rpc`. -/
def ToRpc (H : HttpLibs) (q : HttpReq) : Prop := H.isRpc q.path = true ∧ (q.verb = .get ∨ q.verb = .post ∨ q.verb = .put)

theorem take_rpc {H : HttpLibs} {q : HttpReq} (h : ToRpc H q) : take H q = takeBody q.body := by
  obtain ⟨h1, h2 | h2 | h2⟩ := h <;> simp [take, h1, h2]

theorem take_text {H : HttpLibs} {q : HttpReq} (h : ToRpc H q) {s : Str} (hs : q.body = strBytes s) : take H q = .call (requestOf s).1 (requestOf s).2 := by
  rw [take_rpc h, takeBody, fromUtf8_iff.2 hs]

theorem take_call {H : HttpLibs} {q : HttpReq} {id : Json} {r : Request} (h : take H q = .call id r) : ToRpc H q ∧ ∃ s, q.body = strBytes s ∧ requestOf s = (id, r) := by
  have key : takeBody q.body = .call id r → ∃ s, q.body = strBytes s ∧ requestOf s = (id, r) := by
    intro h
    unfold takeBody at h
    split at h
    · cases h
    · rename_i s hs
      cases h
      exact ⟨s, fromUtf8_iff.1 hs, rfl⟩
  unfold take at h
  split at h
  · rename_i hp
    split at h
    · rename_i hv; exact ⟨⟨hp, .inr (.inl hv)⟩, key h⟩
    · rename_i hv; exact ⟨⟨hp, .inl hv⟩, key h⟩
    · rename_i hv; exact ⟨⟨hp, .inr (.inr hv)⟩, key h⟩
    · cases h
    · cases h
  · cases h

/-- A request is a call of the server exactly if its path belongs to the route, its verb is `GET`, `POST` or `PUT`, and its body is the bytes of a text; the text decides which call it is. -/
theorem C76_call (H : HttpLibs) (q : HttpReq) (id : Json) (r : Request) : take H q = .call id r ↔
    (H.isRpc q.path = true ∧ (q.verb = .get ∨ q.verb = .post ∨ q.verb = .put)) ∧ ∃ s, q.body = strBytes s ∧ requestOf s = (id, r) := by
  constructor
  · exact take_call
  · rintro ⟨h, s, hs, e⟩
    rw [take_text h hs, e]

/-- Neither the verb nor the headers matter, so neither does the origin of the page that sends it: requests with the same body do the same. In particular `GET` can change the project. -/
theorem C76_same {H : HttpLibs} {E : Env} {fs fs' : FS} {v v' : ProjectResult} {q q' : HttpReq} {a : Option HttpRes} (h : ToRpc H q) (h' : ToRpc H q') (hb : q.body = q'.body)
    (hs : Serves H E fs v q a v' fs') : Serves H E fs v q' a v' fs' := by
  have e : take H q = take H q' := by rw [take_rpc h, take_rpc h', hb]
  have er : ∀ msg reply, respond H msg q reply = respond H msg q' reply := by
    intro msg reply
    unfold respond
    rw [e]
    cases ht : take H q' with
    | noText => rw [hb]
    | call id r => rfl
    | options => rfl
    | rest =>
      rw [take_rpc h', takeBody] at ht
      split at ht <;> cases ht
  cases hs with
  | call h1 h2 => rw [er]; exact .call (e ▸ h1) h2
  | garbage h1 => rw [er]; exact .garbage (e ▸ h1)
  | other h1 => rw [er]; exact .other (e ▸ h1)

/-- Requests that do not come to `handle_rpc` change nothing, nor do requests without a body, as browsers send them for links, images and scripts. -/
theorem C76_harmless {H : HttpLibs} {E : Env} {fs fs' : FS} {v v' : ProjectResult} {q : HttpReq} {a : Option HttpRes} (h : ¬ ToRpc H q ∨ q.body = [])
    (hs : Serves H E fs v q a v' fs') : v' = v ∧ fs' = fs := by
  cases hs with
  | garbage => exact ⟨rfl, rfl⟩
  | other => exact ⟨rfl, rfl⟩
  | @call id r out _ msg h1 h2 =>
    obtain ⟨h3, s, h4, h5⟩ := take_call h1
    rcases h with h | h
    · exact absurd h3 h
    · rw [h] at h4
      have : s = [] := strBytes_inj (t := []) h4.symm
      subst this
      have e0 : (Json.parse []).isNone = true := by decide +kernel
      have e : requestOf [] = (.null, .garbage) := by simp [requestOf, Option.isNone_iff_eq_none.1 e0]
      rw [e] at h5
      cases h5
      exact absurd rfl (handles_not_garbage h2)

/-- Every answer at the route carries the headers that allow all origins. Its status says only whether the body was text: all errors have the status of a success. -/
theorem C76_status {H : HttpLibs} {q : HttpReq} (h : ToRpc H q ∨ H.isRpc q.path = true ∧ q.verb = .options) {msg : Str} {reply : Reply} {a : HttpRes}
    (ha : respond H msg q reply = some a) : a.headers = corsHeaders ∧ (a.status = 200 ∨ a.status = 400) ∧
      (a.status = 400 ↔ q.verb ≠ .options ∧ ¬ ∃ s, q.body = strBytes s) := by
  rcases h with h | ⟨h1, h2⟩
  · have hv : q.verb ≠ .options := by obtain ⟨_, h | h | h⟩ := h <;> simp [h]
    by_cases hs : ∃ s, q.body = strBytes s
    · obtain ⟨s, hs⟩ := hs
      simp only [respond, take_text h hs] at ha
      obtain ⟨b, _, rfl⟩ := Option.map_eq_some_iff.1 ha
      exact ⟨rfl, .inl rfl, by simp, fun h => absurd ⟨s, hs⟩ h.2⟩
    · have ht : take H q = .noText := by
        rw [take_rpc h, takeBody]
        split
        · rfl
        · rename_i s e
          exact absurd ⟨s, fromUtf8_iff.1 e⟩ hs
      simp only [respond, ht] at ha
      cases ha
      exact ⟨rfl, .inr rfl, fun _ => ⟨hv, hs⟩, fun _ => rfl⟩
  · have ht : take H q = .options := by simp [take, h1, h2]
    simp only [respond, ht] at ha
    cases ha
    exact ⟨rfl, .inl rfl, by simp, fun h => absurd h2 h.1⟩

/-- So a page of any origin may read every answer at the route. -/
theorem C76_readable {H : HttpLibs} {q : HttpReq} (h : ToRpc H q ∨ H.isRpc q.path = true ∧ q.verb = .options) {msg : Str} {reply : Reply} {a : HttpRes}
    (ha : respond H msg q reply = some a) (origin : Str) : MayRead origin a := by
  have h1 := (C76_status h ha).1
  obtain ⟨st, hd, b⟩ := a
  cases h1
  exact .inl (cors_says.2 (.inl ⟨rfl, rfl⟩))

/-! ## questions before requests -/

/-- What browsers are told when they ask (`OPTIONS`): whatever the origin, requests with these six verbs and, besides harmless headers, any `Content-Type` and `X-Requested-With` are agreed to, no others. -/
theorem C76_preflight {H : HttpLibs} {o : HttpReq} (ho : H.isRpc o.path = true ∧ o.verb = .options) (msg : Str) (reply : Reply) : ∃ a, respond H msg o reply = some a ∧
    ∀ origin q, Agrees origin a q ↔
      q.verb.text ∈ [c!"GET", c!"POST", c!"OPTIONS", c!"PUT", c!"PATCH", c!"DELETE"] ∧
      ∀ h ∈ q.headers, Harmless h ∨ SameWord h.1 c!"content-type" ∨ SameWord h.1 c!"x-requested-with" := by
  have ht : take H o = .options := by simp [take, ho.1, ho.2]
  refine ⟨⟨200, corsHeaders, c!"ok"⟩, by simp only [respond, ht], fun origin q => ⟨fun h => ⟨?_, fun x hx => ?_⟩, fun h => ⟨⟨by simp, by simp⟩, .inl (cors_says.2 (.inl ⟨rfl, rfl⟩)), ?_, fun x hx => ?_⟩⟩⟩
  · rcases h.verb with h | h | ⟨s, l, h1, h2, h3⟩
    · rw [h]; decide
    · rw [h]; decide
    · rcases cors_says.1 h1 with ⟨e, _⟩ | ⟨_, e⟩ | ⟨e, _⟩
      · exact absurd e (by decide)
      · subst e
        rwa [listed_one h2 listed_methods] at h3
      · exact absurd e (by decide)
  · rcases h.headers x hx with h | ⟨s, l, h1, h2, y, hy, h3⟩
    · exact .inl h
    · rcases cors_says.1 h1 with ⟨e, _⟩ | ⟨e, _⟩ | ⟨_, e⟩
      · exact absurd e (by decide)
      · exact absurd e (by decide)
      · subst e
        rw [listed_one h2 listed_headers] at hy
        simp only [List.mem_cons, List.not_mem_nil, or_false] at hy
        rcases hy with rfl | rfl
        · refine .inr (.inr ?_)
          unfold SameWord at h3 ⊢
          rw [← h3]
          decide
        · exact .inr (.inl h3.symm)
  · exact .inr (.inr ⟨_, _, cors_says.2 (.inr (.inl ⟨rfl, rfl⟩)), listed_methods, h.1⟩)
  · rcases h.2 x hx with h | h | h
    · exact .inl h
    · exact .inr ⟨_, _, cors_says.2 (.inr (.inr ⟨rfl, rfl⟩)), listed_headers, _, by simp, h.symm⟩
    · refine .inr ⟨_, _, cors_says.2 (.inr (.inr ⟨rfl, rfl⟩)), listed_headers, c!"X-Requested-With", by simp, ?_⟩
      unfold SameWord at h ⊢
      rw [h]
      decide

/-- The server agrees to `PATCH` and `DELETE`, but has no route for them. -/
theorem C76_unrouted {H : HttpLibs} {q : HttpReq} (h : q.verb = .other c!"PATCH" ∨ q.verb = .other c!"DELETE") : take H q = .rest := by
  unfold take
  split
  · rcases h with h | h <;> rw [h]
  · rfl

/-! ## pages of other origins -/

theorem form_simple (path text : Str) : Simple (formReq path text) := by
  refine ⟨.inl rfl, ?_⟩
  intro h hh
  simp only [formReq, List.mem_cons, List.not_mem_nil, or_false] at hh
  subst hh
  exact .inr ⟨by decide, .inl rfl⟩

/-- Whatever the own page can ask of the server, a page of any origin can ask as well: there is a request that browsers send without asking, which the server takes for exactly this call and
whose answer any page may read. -/
theorem C76_any_page {H : HttpLibs} {path : Str} (hp : H.isRpc path = true) (q : Web.Req) {jid : Nat} (hq : Asks q jid) (hj : jid < 2 ^ 63) :
    ∃ body r, q.body = some body ∧ wireReq q = some r ∧ Simple (formReq path body) ∧ take H (formReq path body) = .call (.num (showNat jid)) r ∧
      ∀ origin msg reply a, respond H msg (formReq path body) reply = some a →
        MayRead origin a ∧ a.status = 200 ∧ reply.body H.w H.e msg (.num (showNat jid)) = some a.body := by
  obtain ⟨body, r, h1, h2, h3⟩ := C63_request q hq hj
  have hr : ToRpc H (formReq path body) := ⟨hp, .inr (.inl rfl)⟩
  have ht : take H (formReq path body) = .call (.num (showNat jid)) r := by rw [take_text hr rfl, h3]
  refine ⟨body, r, h1, h2, form_simple _ _, ht, fun origin msg reply a ha => ⟨C76_readable (.inl hr) ha origin, ?_⟩⟩
  simp only [respond, ht] at ha
  obtain ⟨b, hb, rfl⟩ := Option.map_eq_some_iff.1 ha
  exact ⟨rfl, hb⟩

/-- At any time in the life of a server a page of any origin can read the whole project, with the ids of all artifacts. -/
theorem C76_reads {H : HttpLibs} {path : Str} (hp : H.isRpc path = true) (P : PageLibs) (hn : NumbersBack H.w P.read) {E : Env} {fs : FS} {dir repo : FilePath} {s t : Server}
    {hist : List Art.Event} (hst : Starts E fs dir repo s) (h : Art.Runs E s hist t) (hf : LinesFit t.value.project) {i : Nat}
    (ha : t.alive = true) (hh : t.holder = none) (hpo : t.poisoned = false) (hi : t.threads i = .idle) (origin msg status : Str) {jid : Nat} (hj : jid < 2 ^ 63) :
    ∃ text r a u S, Simple (formReq path text) ∧ take H (formReq path text) = .call (.num (showNat jid)) r ∧
      Art.Runs E t [.arrive i r, .lock i, .finish i r (.success t.value), .send i (.success t.value)] u ∧ u.disk = t.disk ∧
      respond H msg (formReq path text) (.success t.value) = some a ∧ MayRead origin a ∧
      handleResponse P true status a.body = .ok (some (.recvProject jid S)) ∧ Whole.Shows S t.value.project := by
  obtain ⟨body, r, h1, h2, h3, h4, h5⟩ := C76_any_page hp (.read jid false) (jid := jid) rfl hj
  cases h2
  obtain ⟨u, hu, hd, _⟩ := Runs.request (E := E) (fs' := t.disk) ha hh hpo hi (.read (q := some (some false)) (.inr rfl))
  have hresp : ∃ a, respond H msg (formReq path body) (.success t.value) = some a := by
    simp only [respond, h4]
    exact ⟨_, rfl⟩
  obtain ⟨a, hresp⟩ := hresp
  obtain ⟨h6, _, h7⟩ := h5 origin msg _ a hresp
  obtain ⟨m, e1, _, e2, _⟩ := C63_becomes P hst (h.append hu) hn H.e msg status (i := i) (r := .read (some (some false))) (a := .success t.value) (by simp)
    (by rintro _ ⟨⟩; exact hf) (q := .read jid false) (jid := jid) rfl hj h7
  obtain ⟨S, rfl, e3⟩ := e2 _ rfl
  exact ⟨body, _, a, u, S, h3, h4, hu, hd, hresp, h6, e1, e3⟩

/-- And it can change the project: whatever can be done to it, a page of any origin can do. -/
theorem C76_writes {H : HttpLibs} {path : Str} (hp : H.isRpc path = true) {E : Env} {fs fs' : FS} {v : ProjectResult} {ops : List ArtifactOp} {x : Categorized × Project}
    (hl : LinkSets ops) (hm : Modifies E.L E.readToml E.hash E.dbg E.ncpu fs v.project.settings.base ops (some (.ok x)) fs') (origin : Str) :
    ∃ text a, Simple (formReq path text) ∧ Serves H E fs v (formReq path text) (some a) ⟨x.2, x.1⟩ fs' ∧ MayRead origin a := by
  obtain ⟨body, r, h1, h2, h3, h4, h5⟩ := C76_any_page hp (.modify 0 ops) (jid := 0) rfl (by norm_num)
  cases h2
  have hr : Res.mapM' (WireOp.read E.strict) (ops.map wireOp) = .ok ops := by
    clear hm h1 h4 h5 h3
    induction ops with
    | nil => rfl
    | cons op ops ih =>
      simp only [List.map_cons, Res.mapM', wireOp_read E.strict (fun a ha => hl op (by simp) a ha), ih (fun o ho => hl o (by simp [ho])), Res.bind_ok]
      rfl
  have hs := Serves.call (H := H) (msg := []) h4 (.modify (E := E) hr hm)
  have hresp : ∃ a, respond H [] (formReq path body) (modifyWith v (.ok x)).1 = some a := by
    simp only [respond, h4]
    exact ⟨_, rfl⟩
  obtain ⟨a, hresp⟩ := hresp
  rw [hresp] at hs
  exact ⟨body, a, h3, hs, (h5 origin [] _ a hresp).1⟩

/-- The text of a call that crashes the server: delete an artifact whose name has a long s. -/
def killText : Str := (callJson 0 c!"ModifyProject" (.arr ([WireOp.delete ([longS] ++ c!"PC-a") []].map WireOp.toJson))).show

/-- One such request of a page of any origin, which need not know anything about the project, stops any server for good: whenever it is handled there is no answer to it, and no answer to
any later call. Every server that is free handles it. -/
theorem C76_kill {H : HttpLibs} {path : Str} (hp : H.isRpc path = true) (E : Env) {fs : FS} {v : ProjectResult} : Simple (formReq path killText) ∧
    ∃ id r, take H (formReq path killText) = .call id r ∧
      (∀ {h1 h2 : List Art.Event} {s : Server} {i : Nat} {a : Reply}, Art.Runs E (Server.init fs v) (h1 ++ .finish i r a :: h2) s →
        a = .dropped ∧ (∀ msg, respond H msg (formReq path killText) a = none) ∧ ∀ j r' a', Event.finish j r' a' ∈ h2 → r' ≠ .garbage → a' = .dropped) ∧
      ∀ {t : Server} {i : Nat}, t.alive = true → t.holder = none → t.poisoned = false → t.threads i = .idle →
        ∃ u, Art.Runs E t [.arrive i r, .lock i, .finish i r .dropped, .send i .dropped] u := by
  have hn : Name.fromStr ([longS] ++ c!"PC-a") = .panic := by decide +kernel
  have hx : (WireOp.delete ([longS] ++ c!"PC-a") []).read E.strict = .panic := by
    simp only [WireOp.read, wireName, hn]
    rfl
  have hr : ToRpc H (formReq path killText) := ⟨hp, .inr (.inl rfl)⟩
  have ht : take H (formReq path killText) = .call (.ofNat 0) (.modify (some (some [WireOp.delete ([longS] ++ c!"PC-a") []]))) := by
    rw [take_text hr rfl, killText, request_modify (by norm_num)]
  refine ⟨form_simple _ _, _, _, ht, fun {h1 h2 s i a} h => ?_, fun {t i} h1 h2 h3 h4 => ?_⟩
  · obtain ⟨e, h3⟩ := C36_panic_in_params (before := []) (ops' := []) hx rfl h
    subst e
    refine ⟨rfl, fun msg => ?_, h3⟩
    simp only [respond, ht]
    rfl
  · have hpan : Res.mapM' (WireOp.read E.strict) [WireOp.delete ([longS] ++ c!"PC-a") []] = .panic := by
      simp only [Res.mapM', hx]
      rfl
    obtain ⟨u, hu, _⟩ := Runs.request (E := E) (fs' := t.disk) h1 h2 h3 h4 (.modifyPanic hpan)
    exact ⟨u, hu⟩

end Art.Http
