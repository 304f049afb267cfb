import Verif.Model.Cli
import Verif.Props.View

/-!
# Specification: what a command line means
A command line is a list of parts, written as words in one of several ways. This file does not use the functions that read words; of the model it takes the
declarations of the options.
-/

namespace Art
namespace Cli
open Spec

/-- One part of a command line: a flag, an option with its value, or an argument. -/
inductive Part where
  | flag (o : OptDef)
  | value (o : OptDef) (v : Str)
  | arg (v : Str)
  deriving DecidableEq

/-- A word that can be a value or an argument: it does not begin with `-`, or it is just that. -/
def Word (w : Str) : Prop := w = ['-'] ∨ w.head? ≠ some '-'

/-- The text `t` stands for the value `v`: signs `=` before it do not count. -/
def After (t v : Str) : Prop := ∃ n, t = List.replicate n '=' ++ v ∧ v.head? ≠ some '='

/-- `--name` with any more dashes. -/
def Dashed (w name : Str) : Prop := ∃ n, w = '-' :: '-' :: (List.replicate n '-' ++ name)

/-- The letters `cs` are those of the flags `fs`. -/
def Letters (a : AppDef) (fs : List OptDef) (cs : Str) : Prop := List.Forall₂ (fun o c => o ∈ a.opts ∧ o.takes = false ∧ o.short = some c) fs cs

/-- The words `ws` are the parts `ps`. -/
inductive Line (a : AppDef) : List Part → List Str → Prop where
  | nil : Line a [] []
  /-- After `--` everything is an argument. -/
  | rest (l : List Str) : Line a (l.map .arg) (['-', '-'] :: l)
  | arg {w ps ws} : Word w → Line a ps ws → Line a (.arg w :: ps) (w :: ws)
  /-- `--name` or `--name=text`, where the text does not count. -/
  | long {o w t ps ws} : o ∈ a.opts → o.takes = false → Dashed w (o.long ++ t) → (t = [] ∨ t.head? = some '=') → Line a ps ws → Line a (.flag o :: ps) (w :: ws)
  /-- `--name=value`. -/
  | longEq {o w t v ps ws} : o ∈ a.opts → o.takes = true → Dashed w (o.long ++ '=' :: t) → After t v → Line a ps ws → Line a (.value o v :: ps) (w :: ws)
  /-- `--name value`. -/
  | longSep {o w v ps ws} : o ∈ a.opts → o.takes = true → Dashed w o.long → Word v → Line a ps ws → Line a (.value o v :: ps) (w :: v :: ws)
  /-- `-abc`. -/
  | short {fs cs ps ws} : fs ≠ [] → Letters a fs cs → Line a ps ws → Line a (fs.map .flag ++ ps) (('-' :: cs) :: ws)
  /-- `-abovalue` or `-abo=value`. -/
  | shortEq {fs cs o c t v ps ws} : Letters a fs cs → o ∈ a.opts → o.takes = true → o.short = some c → t ≠ [] → After t v → Line a ps ws →
      Line a (fs.map .flag ++ .value o v :: ps) (('-' :: (cs ++ c :: t)) :: ws)
  /-- `-abo value`. -/
  | shortSep {fs cs o c v ps ws} : Letters a fs cs → o ∈ a.opts → o.takes = true → o.short = some c → Word v → Line a ps ws →
      Line a (fs.map .flag ++ .value o v :: ps) (('-' :: (cs ++ [c])) :: v :: ws)

/-- The arguments among the parts. -/
def argsOf : List Part → List Str
  | [] => []
  | .arg v :: l => v :: argsOf l
  | _ :: l => argsOf l

/-- The part is about the option. -/
def about (o : OptDef) : Part → Bool
  | .flag p => p == o
  | .value p _ => p == o
  | .arg _ => false

/-- The number `n` below 2^64, with a `+` or not. -/
def IsNumber (v : Str) (n : Nat) : Prop := n < 2 ^ 64 ∧ ∃ d, Spells d n ∧ (v = d ∨ v = '+' :: d)

/-- The parts are allowed: no option twice unless it can be repeated, numbers where numbers are asked for, not too many arguments and none missing. -/
structure Fits (a : AppDef) (ps : List Part) : Prop where
  once : ∀ o ∈ a.opts, o.many = false → (ps.filter (about o)).length ≤ 1
  number : ∀ o v, Part.value o v ∈ ps → o.number = true → ∃ n, IsNumber v n
  few : (argsOf ps).length ≤ a.pos.length
  needed : ∀ (i : Nat) (p : PosDef), a.pos[i]? = some p → p.required = true → i < (argsOf ps).length
  argNumber : ∀ (i : Nat) (p : PosDef) (v : Str), a.pos[i]? = some p → p.number = true → (argsOf ps)[i]? = some v → ∃ n, IsNumber v n

/-- The value of an option in the parts: the one that is given, or the default. -/
def ValueIn (ps : List Part) (o : OptDef) (v : Option Str) : Prop :=
  (∃ x, Part.value o x ∈ ps ∧ v = some x) ∨ ((∀ x, Part.value o x ∉ ps) ∧ v = o.default)

/-- The value of the option `--name`. -/
def Gets (a : AppDef) (ps : List Part) (name : Str) (v : Option Str) : Prop := ∃ o ∈ a.opts, o.long = name ∧ o.takes = true ∧ ValueIn ps o v

/-- Whether the flag `--name` is there. -/
def Has (a : AppDef) (ps : List Part) (name : Str) (b : Bool) : Prop := b = true ↔ ∃ o ∈ a.opts, o.long = name ∧ Part.flag o ∈ ps

/-- The number after `--verbose`. -/
def Loud (a : AppDef) (ps : List Part) (n : Nat) : Prop := ∃ v, Gets a ps c!"verbose" (some v) ∧ IsNumber v n

/-- The parts ask for this listing. -/
structure Lists (ps : List Part) (x : Ls) (plain : Bool) : Prop where
  pattern : x.pattern = (argsOf ps).head?
  fields : Gets lsApp ps c!"fields" (some x.fields)
  long : Has lsApp ps c!"long" x.long
  spc : Gets lsApp ps c!"spc" (some x.spc)
  tst : Gets lsApp ps c!"tst" (some x.tst)
  name : Has lsApp ps c!"name" x.shown.name
  file : Has lsApp ps c!"file" x.shown.file
  subnames : Has lsApp ps c!"subnames" x.shown.subnames
  parts : Has lsApp ps c!"parts" x.shown.parts
  partof : Has lsApp ps c!"partof" x.shown.partof
  impl : Has lsApp ps c!"impl" x.shown.impl
  text : Has lsApp ps c!"text" x.shown.text
  all : Has lsApp ps c!"all" x.all
  type : Gets lsApp ps c!"type" (some x.outputTy)
  plain : Has lsApp ps c!"plain" plain

/-- The parts after the name of a sub-command ask for this command. -/
inductive Intends (ps : List Part) : AppDef → Cmd → Prop where
  | init {n w} : Loud initApp ps n → Gets initApp ps c!"work-dir" w → Intends ps initApp (.init n w)
  | check {n w} : Loud checkApp ps n → Gets checkApp ps c!"work-dir" w → Intends ps checkApp (.check n w)
  | fmt {n w t} : Loud fmtApp ps n → Gets fmtApp ps c!"work-dir" w → Gets fmtApp ps c!"type" t → Intends ps fmtApp (.fmt n w t)
  | ls {n w x b} : Loud lsApp ps n → Gets lsApp ps c!"work-dir" w → Lists ps x b → Intends ps lsApp (.ls n w x b)
  /-- Here the flags are counted. -/
  | serve {o w port} : o ∈ serveApp.opts → o.long = c!"verbose" → Gets serveApp ps c!"work-dir" w →
      ((argsOf ps = [] ∧ port = 5373) ∨ ∃ v, argsOf ps = [v] ∧ IsNumber v port) → Intends ps serveApp (.serve (ps.count (.flag o)) w port)
  | export {n w ty path} : Loud exportApp ps n → Gets exportApp ps c!"work-dir" w → argsOf ps = [ty, path] → Intends ps exportApp (.export n w ty path)

end Cli
end Art
