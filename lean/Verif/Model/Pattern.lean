import Verif.Model.Export
import Verif.Model.View
import Verif.Model.App

/-!
# The texts of the regular expressions
`Model/Regex.lean` has the regular expressions as trees. This file has them as the texts that stand in /repo, a parser for such texts and a matcher with anchors. The
parser models regex-syntax 0.6.5, which is part of the crate `regex` 1.1.0 (Cargo.lock L1553-1561) and is not part of /repo, as far as it is needed: it knows characters,
escapes, `\d`, `\s`, `\w`, `.`, classes, groups with and without a number or a name, the flags `i`, `m`, `s` and `x`, `*`, `+`, `?`, the lazy ones, `|`, `^` and `$`.
Simplification: all else (`{2,3}`, `\b`, `\pL`, `[a&&b]`, …) is refused, and so are the texts that the crate refuses.
-/

namespace Art

/-- The classes `\d`, `\s` and `\w`. Used at artifact-data/src/raw.rs L209-211, artifact-frontend/src/view.rs L28 and by the user of artifact-app/src/ls.rs L169-178. -/
inductive Perl where
  | digit | space | word
  deriving DecidableEq, Repr

/-- A member of a class: all characters from one to another, or a class like `\s` or `\S`. Used at artifact-ser/src/name.rs L154-203. -/
inductive Item where
  | range (lo hi : Char)
  | perl (k : Perl) (neg : Bool)
  deriving DecidableEq, Repr

/-- A regular expression as it is written. `cls i neg l` is a class, with `i` for `(?i)`; `dot nl` is `.`, with `nl` for `(?s)`; `bol` and `eol` are `^` and `$`, with `true` for
`(?m)`. Used at artifact-data/src/raw.rs L152-157, L209-211, artifact-data/src/implemented.rs L27-42, artifact-ser/src/name.rs L175-210, artifact-ser/src/markdown.rs L20-46,
artifact-frontend/src/view.rs L23-34, artifact-lib/src/lib.rs L43-45 and artifact-app/src/ls.rs L169-178. -/
inductive Pat where
  | eps
  | cls (i neg : Bool) (items : List Item)
  | dot (nl : Bool)
  | bol (m : Bool)
  | eol (m : Bool)
  | seq (a b : Pat)
  | alt (a b : Pat)
  | star (greedy : Bool) (a : Pat)
  | cap (n : Nat) (a : Pat)
  deriving DecidableEq, Repr

/-! ## reading -/

/-- The flags `(?imsx)`. Used at artifact-ser/src/name.rs L177-191, artifact-ser/src/markdown.rs L35 and artifact-data/src/implemented.rs L30. -/
structure PFlags where
  i : Bool := false
  m : Bool := false
  s : Bool := false
  x : Bool := false
  deriving DecidableEq, Repr

/-- What was read before a group: its number, the flags, the alternatives and the current alternative (newest first). Used at artifact-data/src/implemented.rs L31-37. -/
structure Frame where
  cap : Option Nat
  flags : PFlags
  alts : List (Option Pat)
  cur : List (Option Pat)
  deriving DecidableEq, Repr

/-- What was read: the flags, the number of groups, their names, the alternatives and the current alternative (newest first; `none` is a directive like `(?i)`), and the open
groups. Used at artifact-data/src/implemented.rs L29-41. -/
structure PState where
  flags : PFlags := {}
  caps : Nat := 0
  names : List (Str × Nat) := []
  alts : List (Option Pat) := []
  cur : List (Option Pat) := []
  stack : List Frame := []
  deriving DecidableEq, Repr

/-- One more expression in the current alternative. artifact-data/src/implemented.rs L29-41. -/
def PState.push (st : PState) (a : Pat) : PState := { st with cur := some a :: st.cur }

/-- The expressions of an alternative, newest first, one after the other. artifact-data/src/implemented.rs L29-41. -/
def catPat (l : List (Option Pat)) : Pat := l.foldl (fun r a => match a with | some a => .seq a r | none => r) .eps

/-- The end of one of several alternatives. One that has only a directive is passed over, an empty one is refused. artifact-ser/src/markdown.rs L35-36. -/
def altEnd (cur : List (Option Pat)) : Option (Option Pat) :=
  if cur = [none] then some none
  else if cur.all Option.isNone then none
  else some (some (catPat cur))

/-- Several alternatives. artifact-ser/src/markdown.rs L34-44. -/
def altPat : List Pat → Option Pat
  | [] => none
  | [a] => some a
  | a :: l => (altPat l).map (.alt a)

/-- The end of a group, or of the whole text. artifact-ser/src/markdown.rs L34-44. -/
def altsEnd (alts cur : List (Option Pat)) : Option Pat :=
  if alts = [] then some (catPat cur)
  else do
    let last ← altEnd cur
    altPat ((last :: alts).reverse.filterMap id)

/-- The characters that have a meaning: regex-syntax `is_meta_character`. Used at artifact-data/src/raw.rs L153 (`regex::escape`). -/
def metaChars : Str := c!"\\.+*?()|[]{}^$#&-~"

/-- The character after a backslash, when the two stand for one character. artifact-ser/src/name.rs L181-203, artifact-ser/src/markdown.rs L24. -/
def escChar (x : Bool) (c : Char) : Option Char :=
  if metaChars.contains c then some c
  else if x && c == ' ' then some ' '
  else match c with
    | 'n' => some '\n'
    | 't' => some '\t'
    | 'r' => some '\r'
    | _ => none

/-- The character after a backslash, when the two stand for a class. artifact-data/src/raw.rs L209-211, artifact-ser/src/markdown.rs L24. -/
def escClass (c : Char) : Option Item :=
  match c with
  | 'd' => some (.perl .digit false)
  | 's' => some (.perl .space false)
  | 'w' => some (.perl .word false)
  | 'D' => some (.perl .digit true)
  | 'S' => some (.perl .space true)
  | 'W' => some (.perl .word true)
  | _ => none

/-- The text after a comment. artifact-ser/src/name.rs L192-198, artifact-data/src/implemented.rs L31-37. -/
def dropComment : Str → Str
  | [] => []
  | c :: s => if c == '\n' then s else dropComment s

/-- A character of a class. artifact-ser/src/name.rs L154-203, artifact-ser/src/markdown.rs L24. -/
def classChar (x : Bool) : Str → Option (Char × Str)
  | [] => none
  | '\\' :: c :: s => (escChar x c).map fun d => (d, s)
  | c :: s => if c ∈ c!"\\[]&-~" || (x && (isWS c || c == '#')) then none else some (c, s)

/-- After one character of a class there may be the end of a range. artifact-ser/src/name.rs L154-159. -/
def classRange (x : Bool) (lo : Char) : Str → Option (Item × Str)
  | '-' :: s => (classChar x s).bind fun (hi, s) => if lo ≤ hi then some (.range lo hi, s) else none
  | s => some (.range lo lo, s)

/-- The next member of a class; `none` is for blanks and comments. artifact-ser/src/name.rs L154-203, artifact-ser/src/markdown.rs L24. -/
def classNext (x : Bool) : Str → Option (Option Item × Str)
  | [] => none
  | c :: t =>
    if x && isWS c then some (none, t)
    else if x && c == '#' then some (none, dropComment t)
    else match (if c = '\\' then t.head?.bind escClass else none) with
      | some it => some (some it, t.tail)
      | none => (classChar x (c :: t)).bind fun (d, t) => (classRange x d t).map fun (it, t) => (some it, t)

/-- The members of a class up to the bracket. artifact-ser/src/name.rs L154-203, artifact-ser/src/markdown.rs L24. -/
def classItems (x : Bool) : Nat → Str → List Item → Option (List Item × Str)
  | 0, _, _ => none
  | n + 1, s, l =>
    if s.head? = some ']' then (if l = [] then none else some (l.reverse, s.tail))
    else (classNext x s).bind fun (it, t) => classItems x n t (it.toList ++ l)

/-- The text of the flags up to the colon or the bracket, and whether it is a colon. artifact-ser/src/name.rs L177-203. -/
def flagText : Str → Option (Str × Bool × Str)
  | [] => none
  | ')' :: s => some ([], false, s)
  | ':' :: s => some ([], true, s)
  | c :: s => (flagText s).map fun (f, b, r) => (c :: f, b, r)

/-- One flag is set or, after a minus sign, taken away. artifact-ser/src/name.rs L177-203. -/
def setFlag (f : PFlags) (on : Bool) : Char → Option PFlags
  | 'i' => some { f with i := on }
  | 'm' => some { f with m := on }
  | 's' => some { f with s := on }
  | 'x' => some { f with x := on }
  | _ => none

/-- All flags. artifact-ser/src/name.rs L177-203. -/
def setFlags (f : PFlags) (on : Bool) : Str → Option PFlags
  | [] => if on then some f else none
  | '-' :: s => if on && s ≠ [] then s.foldlM (fun f c => setFlag f false c) f else none
  | c :: s => (setFlag f on c).bind fun f => setFlags f on s

/-- The name of a group up to `>`. artifact-ser/src/name.rs L171-173, artifact-ser/src/markdown.rs L16-18. -/
def groupName : Str → Option (Str × Str)
  | [] => none
  | '>' :: s => some ([], s)
  | c :: s => if c.isAlphanum || c == '_' then (groupName s).map fun (n, r) => (c :: n, r) else none

/-- A group is opened. artifact-data/src/implemented.rs L31-34. -/
def PState.openGroup (st : PState) (cap : Option Nat) (flags : PFlags) : PState :=
  { st with flags, alts := [], cur := [], stack := ⟨cap, st.flags, st.alts, st.cur⟩ :: st.stack }

/-- A group is closed: the flags are as before. artifact-data/src/implemented.rs L35-38. -/
def PState.closeGroup (st : PState) : Option PState :=
  match st.stack with
  | [] => none
  | f :: stack =>
    if st.alts = [] && st.cur.all Option.isNone && (f.cap.isNone || st.cur ≠ []) then none
    else (altsEnd st.alts st.cur).map fun a =>
      { st with flags := f.flags, alts := f.alts, stack, cur := some (match f.cap with | some n => .cap n a | none => a) :: f.cur }

/-- `*`, `+` or `?` after an expression. artifact-ser/src/name.rs L162-203, artifact-data/src/raw.rs L209-211. -/
def PState.repeated (st : PState) (f : Pat → Pat) : Option PState :=
  match st.cur with
  | some a :: l => some { st with cur := some (f a) :: l }
  | _ => none

/-- `*`, `+` or `?`, each with or without `?`. artifact-ser/src/name.rs L162-203, artifact-data/src/raw.rs L209-211. -/
def repPat (c : Char) (greedy : Bool) (a : Pat) : Pat :=
  match c with
  | '*' => .star greedy a
  | '+' => .seq a (.star greedy a)
  | _ => if greedy then .alt a .eps else .alt .eps a

/-- A character that stands for itself. artifact-ser/src/name.rs L162-168. -/
def litPat (i : Bool) (c : Char) : Pat := .cls i false [.range c c]

/-- The next piece of a text. artifact-ser/src/name.rs L175-210, artifact-data/src/implemented.rs L29-41, artifact-ser/src/markdown.rs L20-46. -/
def PState.step (st : PState) : Str → Option (PState × Str)
  | [] => none
  | c :: r =>
    if st.flags.x && isWS c then some (st, r)
    else if st.flags.x && c == '#' then some (st, dropComment r)
    else match c with
    | '(' =>
      match r with
      | '?' :: 'P' :: '<' :: r => (groupName r).bind fun (n, r) =>
          if n = [] || n.head?.any Char.isDigit || st.names.any (fun x => x.1 == n) then none
          else some ({ st with caps := st.caps + 1, names := st.names ++ [(n, st.caps + 1)] }.openGroup (some (st.caps + 1)) st.flags, r)
      | '?' :: r => (flagText r).bind fun (f, colon, r) =>
          if !f.Nodup then none
          else (setFlags st.flags true f).bind fun fl =>
            if colon then some (st.openGroup none fl, r)
            else if f = [] then none
            else some ({ st with flags := fl, cur := none :: st.cur }, r)
      | r => some ({ st with caps := st.caps + 1 }.openGroup (some (st.caps + 1)) st.flags, r)
    | ')' => st.closeGroup.map fun st => (st, r)
    | '|' => (altEnd st.cur).map fun a => ({ st with alts := a :: st.alts, cur := [] }, r)
    | '[' =>
      let (neg, t) := match r with
        | '^' :: t => (true, t)
        | t => (false, t)
      (classItems st.flags.x (t.length + 1) t []).map fun (l, r) => (st.push (.cls st.flags.i neg l), r)
    | '.' => some (st.push (.dot st.flags.s), r)
    | '^' => some (st.push (.bol st.flags.m), r)
    | '$' => some (st.push (.eol st.flags.m), r)
    | '{' => none
    | '\\' =>
      match r with
      | [] => none
      | d :: r => match escClass d with
        | some it => some (st.push (.cls false false [it]), r)
        | none => (escChar st.flags.x d).map fun d => (st.push (litPat st.flags.i d), r)
    | c =>
      if c == '*' || c == '+' || c == '?' then
        match r with
        | '?' :: r => (st.repeated (repPat c false)).map fun st => (st, r)
        | r => (st.repeated (repPat c true)).map fun st => (st, r)
      else some (st.push (litPat st.flags.i c), r)

/-- The whole text. The first argument is fuel, called with the length of the text. artifact-ser/src/name.rs L175-210. -/
def PState.run : Nat → PState → Str → Option PState
  | _, st, [] => some st
  | 0, _, _ :: _ => none
  | n + 1, st, c :: s => (st.step (c :: s)).bind fun (st, s) => PState.run n st s

/-- A compiled expression with the names of its groups (`Regex`). artifact-ser/src/name.rs L176-209. -/
structure Rx where
  pat : Pat
  names : List (Str × Nat)
  deriving DecidableEq, Repr

/-- What was read, when the text ends here. artifact-ser/src/name.rs L176-209. -/
def PState.finish (st : PState) : Option Rx :=
  if st.stack = [] then (altsEnd st.alts st.cur).map fun p => ⟨p, st.names⟩ else none

/-- `Regex::new`. artifact-ser/src/name.rs L177, L182, L206, L209, artifact-data/src/raw.rs L156, L209-211, artifact-data/src/implemented.rs L29,
artifact-ser/src/markdown.rs L32-34, artifact-frontend/src/view.rs L24-29, artifact-lib/src/lib.rs L44, artifact-app/src/ls.rs L172-175. Simplification: the size limit of the
crate is not modelled. -/
def Rx.parse (s : Str) : Option Rx := (({} : PState).run s.length s).bind PState.finish

/-- `RegexBuilder::new` with `case_insensitive(true)`. artifact-frontend/src/dev_prelude.rs L493-496 (`parse_regex`). -/
def Rx.parseI (s : Str) : Option Rx := (({ flags := { i := true } } : PState).run s.length s).bind PState.finish

/-! ## matching -/

/-- What is known of the characters: those that are the same without regard to case, the digits and the characters of words. Used at artifact-frontend/src/view.rs L28,
artifact-ser/src/name.rs L177 and artifact-app/src/ls.rs L169-178. -/
structure CharData where
  same : Char → List Char
  digit : Char → Bool
  word : Char → Bool

/-- Whether a character is in `\d`, `\s` or `\w`. artifact-data/src/raw.rs L209-211, artifact-frontend/src/view.rs L28. -/
def CharData.perl (U : CharData) : Perl → Char → Bool
  | .digit => U.digit
  | .space => isWS
  | .word => U.word

/-- Whether a character is a member. artifact-ser/src/name.rs L154-159. -/
def Item.has (U : CharData) (c : Char) : Item → Bool
  | .range lo hi => decide (lo ≤ c) && decide (c ≤ hi)
  | .perl k neg => U.perl k c != neg

/-- Whether a character is in a class: without regard to case it is when one that is the same is. artifact-ser/src/name.rs L154-203. -/
def inClass (U : CharData) (i neg : Bool) (items : List Item) (c : Char) : Bool :=
  (if i then (U.same c).any (fun d => items.any (Item.has U d)) else items.any (Item.has U c)) != neg

/-- Whether a position is the beginning of the text or, with `(?m)`, of a line. The character before it is given. artifact-ser/src/markdown.rs L24. -/
def atBol (m : Bool) (p : Option Char) : Bool := p.isNone || (m && p == some '\n')

/-- Whether a position is the end of the text or, with `(?m)`, of a line. The text after it is given. artifact-ser/src/markdown.rs L24. -/
def atEnd (m : Bool) (s : Str) : Bool := s.isEmpty || (m && s.head? == some '\n')

/-- The character before a position after some text was passed. artifact-ser/src/markdown.rs L202. -/
def after (p : Option Char) (m : Str) : Option Char := m.getLast?.or p

namespace Pat

/-- All ways to repeat, in order of preference, as `Re.iter`. artifact-ser/src/name.rs L162-203. -/
def iter (greedy : Bool) (step : Option Char → Str → List Match) : Nat → Option Char → Str → List Match
  | 0, _, s => [([], s, [])]
  | fuel + 1, p, s =>
    let more := (step p s).flatMap fun (m, r, c) =>
      if m = [] then [] else (iter greedy step fuel (after p m) r).map fun (m', r', c') => (m ++ m', r', c ++ c')
    if greedy then more ++ [([], s, [])] else ([], s, []) :: more

/-- All matches that begin at a position, in order of preference: leftmost-first semantics. The character before the position and the text after it are given.
artifact-ser/src/name.rs L175-210. -/
def ms (U : CharData) : Pat → Option Char → Str → List Match
  | eps, _, s => [([], s, [])]
  | cls _ _ _, _, [] => []
  | cls i neg l, _, c :: s => if inClass U i neg l c then [([c], s, [])] else []
  | dot _, _, [] => []
  | dot nl, _, c :: s => if nl || c != '\n' then [([c], s, [])] else []
  | bol m, p, s => if atBol m p then [([], s, [])] else []
  | eol m, _, s => if atEnd m s then [([], s, [])] else []
  | seq a b, p, s => (ms U a p s).flatMap fun (m, r, c) => (ms U b (after p m) r).map fun (m', r', c') => (m ++ m', r', c ++ c')
  | alt a b, p, s => ms U a p s ++ ms U b p s
  | star g a, p, s => iter g (ms U a) s.length p s
  | cap n a, p, s => (ms U a p s).map fun (m, r, c) => (m, r, (n, m) :: c)

/-- The match that begins at a position. artifact-ser/src/markdown.rs L202. -/
def here (U : CharData) (r : Pat) (p : Option Char) (s : Str) : Option Match := (ms U r p s).head?

/-- The first match at or after a position. artifact-frontend/src/view.rs L48, L51, artifact-data/src/raw.rs L224. -/
def find (U : CharData) (r : Pat) : Option Char → Str → Option Match
  | p, [] => here U r p []
  | p, c :: s => (here U r p (c :: s)).or (find U r (some c) s)

/-- The matches one after the other. The first argument after the expression is fuel. All expressions searched for in /repo match at least one character.
artifact-data/src/implemented.rs L76, artifact-data/src/project.rs L388, artifact-ser/src/name.rs L329. -/
def iterFrom (U : CharData) (r : Pat) : Nat → Option Char → Str → List Match
  | 0, _, _ => []
  | n + 1, p, s =>
    match here U r p s with
    | some (m, rest, c) => if m = [] then [] else (m, rest, c) :: iterFrom U r n (after p m) rest
    | none =>
      match s with
      | [] => []
      | c :: s => iterFrom U r n (some c) s

/-- The matches replaced one after the other. The first argument after the expression is fuel. artifact-ser/src/markdown.rs L202, L253. -/
def replaceFrom (U : CharData) (r : Pat) (f : Match → Res Unit Str) : Nat → Option Char → Str → Res Unit Str
  | 0, _, _ => .ok []
  | n + 1, p, s =>
    match here U r p s with
    | some (m, rest, c) => do
      let o ← f (m, rest, c)
      let t ← replaceFrom U r f n (after p m) rest
      pure (o ++ t)
    | none =>
      match s with
      | [] => .ok []
      | c :: s => do
        let t ← replaceFrom U r f n (some c) s
        pure (c :: t)

end Pat

/-- `Regex::is_match`. artifact-ser/src/name.rs L345, L482, artifact-data/src/raw.rs L263-276, artifact-lib/src/lib.rs L158, artifact-app/src/ls.rs L184-207. -/
def Rx.isMatch (U : CharData) (r : Rx) (s : Str) : Bool := (r.pat.find U none s).isSome

/-- `Regex::captures`: the whole match is with the groups, as number 0. artifact-frontend/src/view.rs L48, L51, artifact-data/src/raw.rs L224. -/
def Rx.captures (U : CharData) (r : Rx) (s : Str) : Option Match := r.pat.find U none s

/-- `Regex::captures_iter`. artifact-data/src/implemented.rs L76, artifact-data/src/project.rs L388, artifact-ser/src/name.rs L329. -/
def Rx.capturesIter (U : CharData) (r : Rx) (s : Str) : List Match := r.pat.iterFrom U s.length none s

/-- `Regex::replace_all`. artifact-ser/src/markdown.rs L202, L253. -/
def Rx.replaceAll (U : CharData) (r : Rx) (f : Match → Res Unit Str) (s : Str) : Res Unit Str := r.pat.replaceFrom U f s.length none s

/-- `Captures::name`. artifact-ser/src/markdown.rs L190-197, artifact-data/src/implemented.rs L77-82. -/
def Rx.name (r : Rx) (m : Match) (n : Str) : Option Str := ((r.names.find? (fun x => x.1 == n)).map Prod.snd).bind (Caps.get m.2.2)

/-! ## the texts -/

/-- `format!` with `{}` and `{0}`: the pieces are put in. artifact-ser/src/name.rs L177-203, artifact-ser/src/markdown.rs L23-44. -/
def fmtArgs (args : List Str) : Nat → Str → Str
  | _, [] => []
  | k, '{' :: '}' :: s => args.getD k [] ++ fmtArgs args (k + 1) s
  | k, '{' :: '0' :: '}' :: s => args.getD 0 [] ++ fmtArgs args k s
  | k, '{' :: '1' :: '}' :: s => args.getD 1 [] ++ fmtArgs args k s
  | k, '{' :: '2' :: '}' :: s => args.getD 2 [] ++ fmtArgs args k s
  | k, c :: s => c :: fmtArgs args k s

/-- artifact-ser/src/name.rs L154-159 (`NAME_VALID_CHARS`). -/
def nameValidChars : Str := c!"A-Z0-9_"

/-- artifact-ser/src/name.rs L162-168 (`NAME_VALID_STR`). -/
def nameValidStr : Str := c! r"(?:REQ|SPC|TST)-(?:[" ++ nameValidChars ++ c! r"]+-)*(?:[" ++ nameValidChars ++ c! r"]+)"

/-- artifact-ser/src/name.rs L177 (`NAME_VALID_RE`). -/
def nameText : Str := fmtArgs [nameValidStr] 0 c! r"(?i)^{}$"

/-- artifact-ser/src/name.rs L182 (`VALID_SUB_NAME_RE`). -/
def subNameText : Str := fmtArgs [nameValidChars] 0 c! r"(?i)^\.(?:tst-)?[{}]+$"

/-- artifact-ser/src/name.rs L185-189 (`TEXT_SUB_NAME_STR`). -/
def textSubText : Str := fmtArgs [c!"sub", nameValidChars] 0 c! r"(?i)\[\[(?P<{}>\.(?:tst-)?[{}]+)\]\]"

/-- artifact-ser/src/name.rs L191-203 (`TEXT_REF_STR`). -/
def textRefText : Str := fmtArgs [nameValidChars, c!"name", c!"name_sub"] 0 c! r#"(?xi)
        \[\[(?P<{1}>                # start main section
        (?:REQ|SPC|TST)             # all types are supported
        -(?:[{0}]+-)*               # any number of first element
        (?:[{0}]+)                  # required end element
        )                           # end main section
        (?P<{2}>\.(?:tst-)?[{0}]+)? # (optional) sub section
        \]\]                        # close text reference
        "#

/-- artifact-data/src/implemented.rs L29-41 (`SRC_NAME_RE`). -/
def srcText : Str := fmtArgs [nameValidChars] 0 c! r#"(?xi)
        (?:                     # start std section
        \#(                     # start main section
        (?:REQ|SPC|TST)         # all types are supported
        -(?:[{0}]+-)*           # any number of first elements
        (?:[{0}]+)              # required end element
        )                       # end main section
        (\.(?:tst-)?[{0}]+)?    # (optional) sub section
        )                       # end std section
        |(?P<skip>\#ART-SKIP)
        |(?P<done>\#ART-DONE)
        "#

/-- artifact-ser/src/markdown.rs L23-29 (`TEXT_DOT_STR`). -/
def textDotText : Str := fmtArgs [c!"dot_pre", c!"dot", c!"dot_post"] 0 c! r#"
        (?:^(?P<{}>```dot\s*)\n(?P<{}>[\s\S]+?\n)(?P<{}>```)$)
        "#

/-- artifact-ser/src/markdown.rs L34-44 (`REPLACE_TEXT_RE`). -/
def replaceText : Str := fmtArgs [textSubText, textRefText, textDotText] 0 c! r#"(?xim)
        |({})                       # subname creation
        |({})                       # name reference
        |({})                     # dot replacement
        "#

/-- artifact-frontend/src/view.rs L24-27 and artifact-ser/src/markdown.rs L32 (`NAME_URL`). -/
def nameUrlText : Str := fmtArgs [nameValidStr] 0 c! r"(?i)(?:artifacts/)?({})"

/-- artifact-frontend/src/view.rs L28 and artifact-ser/src/markdown.rs L33 (`EDIT_URL`). -/
def editUrlText : Str := c! r"(?i)edit/(\d+)"

/-- artifact-data/src/raw.rs L209 (`ATTRS_END_RE`). -/
def attrsEndText : Str := c! r"^###+\s*$"

/-- artifact-data/src/raw.rs L210 (`ATTRS_CODE_RE`). -/
def attrsCodeText : Str := c! r"^```((\s*)|(.*?\s+))art+\s*$"

/-- artifact-data/src/raw.rs L211 (`CODE_END_RE`). -/
def codeEndText : Str := c! r"^```+\s*$"

/-- artifact-lib/src/lib.rs L44 (`SUBNAME_TST_RE`). -/
def subnameTstText : Str := c! r"(?i)^\.tst-.*$"

/-- `regex::escape`. artifact-data/src/raw.rs L153. -/
def escapePat (s : Str) : Str := s.flatMap fun c => if metaChars.contains c then ['\\', c] else [c]

/-- artifact-data/src/raw.rs L155 (`get_re`); the prefix is put in unchanged. -/
def nameLineText (pre : Str) : Str := c! r"(?i)^" ++ escapePat pre ++ c! r"#\s*(" ++ nameValidStr ++ c! r")\s*$"

/-- artifact-ser/src/markdown.rs L190-199: which of the three a match is, by the names of its groups. The groups are given the numbers of `textSubRe`, `textRefRe` and `dotRe`; `none` is the `panic!`. -/
def replKind (r : Rx) (m : Match) : Option ReplMatch :=
  match r.name m c!"sub" with
  | some s => some (.sub (m.1, m.2.1, [(1, s)]))
  | none => match r.name m c!"name" with
    | some n => some (.ref (m.1, m.2.1, (1, n) :: (match r.name m c!"name_sub" with | some s => [(2, s)] | none => [])))
    | none => match r.name m c!"dot" with
      | some d => some (.dot (m.1, m.2.1, [(1, (r.name m c!"dot_pre").getD []), (2, d), (3, (r.name m c!"dot_post").getD [])]))
      | none => none

/-- `Regex::new` with `is_match`, as `filter_artifacts` uses it. artifact-app/src/ls.rs L169-186. -/
def compileRx (U : CharData) (s : Str) : Option (Str → Bool) := (Rx.parse s).map (Rx.isMatch U)

/-- `parse_regex` with `is_match`, as the pages use it. `msg` is the message. artifact-frontend/src/dev_prelude.rs L493-508, artifact-frontend/src/nav.rs L179-186, L208-215,
artifact-frontend/src/graph.rs L88-92. -/
def compilePage (U : CharData) (msg : Str → Str) (s : Str) : Except Str (Str → Bool) :=
  match Rx.parseI s with
  | some r => .ok (r.isMatch U)
  | none => .error (msg s)

end Art
