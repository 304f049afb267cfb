import Verif.Model.Http

/-!
# What web pages may do: the rules of browsers

A small part of the Fetch standard, for requests without credentials: a page may send a simple request to any server. Any other request it may send only if the server has agreed in its answer to a question
(`OPTIONS`). It may read an answer if the answer says so. The origin of a page is a text like `https://example.com`.
-/

namespace Art.Http

/-- The same text up to the case of ASCII letters. -/
def SameWord (a b : Str) : Prop := a.map Char.toLower = b.map Char.toLower

instance (a b : Str) : Decidable (SameWord a b) := inferInstanceAs (Decidable (_ = _))

/-- The types of content that forms can send. -/
def FormType (s : Str) : Prop := s = c!"text/plain" ∨ s = c!"application/x-www-form-urlencoded" ∨ s = c!"multipart/form-data"

/-- A header that a page may always set (some of them). -/
def Harmless (h : Str × Str) : Prop :=
  (SameWord h.1 c!"accept" ∨ SameWord h.1 c!"accept-language" ∨ SameWord h.1 c!"content-language") ∨ (SameWord h.1 c!"content-type" ∧ FormType h.2)

/-- A simple request, as forms send them. Pages cannot give a body to `GET`. -/
def Simple (q : HttpReq) : Prop := (q.verb = .post ∨ q.verb = .get ∧ q.body = []) ∧ ∀ h ∈ q.headers, Harmless h

/-- What a form with `enctype="text/plain"`, or a script of any page, sends without asking: the bytes of a text. -/
def formReq (path text : Str) : HttpReq := ⟨.post, path, [(c!"Content-Type", c!"text/plain")], strBytes text⟩

/-- The answer has this header. -/
def HttpSays (a : HttpRes) (name value : Str) : Prop := ∃ h ∈ a.headers, SameWord h.1 name ∧ h.2 = value

/-- A page of this origin may read the answer. -/
def MayRead (origin : Str) (a : HttpRes) : Prop := HttpSays a c!"access-control-allow-origin" c!"*" ∨ HttpSays a c!"access-control-allow-origin" origin

/-- The words of a list with commas: what is between them, without blanks at the ends. -/
inductive Listed : Str → List Str → Prop where
  | one {l m r : Str} : (∀ c ∈ l, c = ' ') → (∀ c ∈ r, c = ' ') → (∀ c ∈ m, c ≠ ',' ∧ c ≠ ' ') → Listed (l ++ m ++ r) [m]
  | more {l m r s : Str} {ms : List Str} : (∀ c ∈ l, c = ' ') → (∀ c ∈ r, c = ' ') → (∀ c ∈ m, c ≠ ',' ∧ c ≠ ' ') → Listed s ms → Listed (l ++ m ++ r ++ ',' :: s) (m :: ms)

/-- How a verb is written. -/
def Verb.text : Verb → Str
  | .get => c!"GET"
  | .post => c!"POST"
  | .put => c!"PUT"
  | .options => c!"OPTIONS"
  | .other s => s

/-- The answer `a` to the question whether the request `q` may be sent agrees. -/
structure Agrees (origin : Str) (a : HttpRes) (q : HttpReq) : Prop where
  status : 200 ≤ a.status ∧ a.status < 300
  origin : MayRead origin a
  verb : q.verb = .get ∨ q.verb = .post ∨ ∃ s l, HttpSays a c!"access-control-allow-methods" s ∧ Listed s l ∧ q.verb.text ∈ l
  headers : ∀ h ∈ q.headers, Harmless h ∨ ∃ s l, HttpSays a c!"access-control-allow-headers" s ∧ Listed s l ∧ ∃ x ∈ l, SameWord x h.1

end Art.Http
