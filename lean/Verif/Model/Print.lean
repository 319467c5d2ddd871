import Verif.Model.Machine
import Verif.Model.FloatFormat
import Verif.Model.Parse

/-
Printing and parsing as part of a program: histories of commands (Model/Machine.lean) with `format(x, spec)`, `repr(x)` and
`ufloat_fromstr(s, tag)`.
-/

set_option autoImplicit false

namespace Unc

/-- How floats are printed. -/
structure TextIO (F : Type) where
  /-- the float operations used when formatting -/
  ops : FlOps
  /-- the value of a float -/
  num : F → FNum
  /-- `repr(x)` -/
  repr : F → Str

/-- A command, or something with text. -/
inductive PCmd (F : Type) where
  | run (c : Cmd F)
  /-- `format(x, spec)`; `str(x)` with an empty specification (core.py 1859-1863) -/
  | format (x : Arg F) (spec : Str)
  /-- `repr(x)` -/
  | repr (x : Arg F)
  /-- `ufloat_fromstr(s, tag)` -/
  | fromstr (s : Str) (tag : Option String)

/-- What a program sees. -/
inductive POut (F : Type) where
  | out (o : Out F)
  | text (s : Str)

variable {F : Type}

/-- The result of a function that returns text. -/
def POut.ofText : PyRes Str → POut F
  | .ok s => .text s
  | .error e => .out (.err e)

variable [PyMath F]

/-- `format(x, spec)` (core.py 1865-2333): the specification is checked before anything is read (core.py 1985-2006); the
nominal value and the standard deviation are read once (core.py 2027-2028); the remaining calculations only use these two
numbers (`FlOps.formatU`). -/
def World.format (io : TextIO F) (w : World F) (u : UF F) (spec : Str) : World F × PyRes Str :=
  match parseSpec spec with
  | none => (w, .error .valueError)
  | some _ =>
    match w.stdDev u with
    | (w, .error e) => (w, .error e)
    | (w, .ok s) => (w, io.ops.formatU (io.num u.nom) (io.num s) spec)

/-- `"< %s = %s >" % (tag, text)` (core.py 2805).  Simplification: tags are strings. -/
def tagText (tag : String) (text : Str) : Str := "< ".toList ++ tag.toList ++ " = ".toList ++ text ++ " >".toList

/-- `repr(x)` (core.py 1840-1857; with the tag for variables, core.py 2798-2805). -/
def World.repr (io : TextIO F) (w : World F) (u : UF F) : World F × PyRes Str :=
  match w.stdDev u with
  | (w, .error e) => (w, .error e)
  | (w, .ok s) =>
    let text := reprU io.repr PyFloat.truthy u.nom s
    match u.var with
    | none => (w, .ok text)
    | some v =>
      match w.vars[v]? with
      | none => (w, .error .attributeError)   -- no such variable
      | some cell =>
        match cell.tag with
        | none => (w, .ok text)
        | some t => (w, .ok (tagText t text))

/-- A command that prints a number with uncertainty. -/
def Machine.print (m : Machine F) (x : Arg F) (f : World F → UF F → World F × PyRes Str) : Machine F × POut F :=
  match x.evalUnc m.env with
  | none => ((m.invalid 0).1, .out .invalid)
  | some u => (⟨(f m.w u).1, m.env⟩, .ofText (f m.w u).2)

variable [PyText F]

/-- Execution of a command.  `ufloat_fromstr` (core.py 3165-3227): the text is parsed, then the variable is created by
`ufloat()`. -/
def Machine.pstep (io : TextIO F) (m : Machine F) : PCmd F → Machine F × POut F
  | .run c => ((m.step c).1, .out (m.step c).2)
  | .format x spec => m.print x (fun w u => w.format io u spec)
  | .repr x => m.print x (fun w u => w.repr io u)
  | .fromstr s tag =>
    match strToNumberWithUncert (F := F) (strip s) with
    | .error e => (⟨m.w, m.env ++ [none]⟩, .out (.err e))
    | .ok (n, u) => ((m.step (.ufloat n u tag)).1, .out (m.step (.ufloat n u tag)).2)

/-- Execution of commands, without looking at what they show. -/
def Machine.prun (io : TextIO F) : Machine F → List (PCmd F) → Machine F
  | m, [] => m
  | m, c :: cs => Machine.prun io (m.pstep io c).1 cs

end Unc
