import Verif.Model.Machine

/-
Vocabulary of the properties: what a program sees after a history of commands.
-/

namespace Unc

variable {F : Type} [PyMath F]

/-- State after a history of commands. -/
def after (cs : List (Cmd F)) : Machine F := (Machine.init.run cs).1

/-- What a program that runs these commands sees. -/
def outs (cs : List (Cmd F)) : List (Out F) := (Machine.init.run cs).2

/-- What a program sees when it runs command `c` after the history `cs`. -/
def sees (cs : List (Cmd F)) (c : Cmd F) : Out F := ((after cs).step c).2

/-- How to refer to the first value bound by the command that follows the history `cs`. -/
def next (cs : List (Cmd F)) : Arg F := .ref (after cs).env.length

/-- What `v.std_dev` gives after the history `cs`, for a key `v` of `x.derivatives`. -/
def seesKeyStd (cs : List (Cmd F)) (x : Arg F) (v : VarId) : Out F :=
  sees (cs ++ [.variable x v]) (.stdDev (next cs))

/-- What can be read on a number with uncertainty `x` after the history `cs`: nominal value `n`,
derivatives `D`, and current standard deviation `σ v` of each variable `v` found in the keys of the
derivatives. -/
structure Quantity (cs : List (Cmd F)) (x : Arg F) (n : F) (D : VarId → Option F) (σ : VarId → F) :
    Prop where
  nominal : sees cs (.nominal x) = .val (.flt n)
  derivatives : sees cs (.derivatives x) = .dict D
  std : ∀ v, D v ≠ none → seesKeyStd cs x v = .val (.flt (σ v))

/-- Functions defined by a command. -/
def Cmd.defs : Cmd F → List (WrapDef F)
  | .wrap df => [df]
  | _ => []

/-- The functions that can be called after a history, in order: the operators, and the functions that
the program wrapped. -/
def fnsOf (cs : List (Cmd F)) : List (WrapDef F) := opDefs ++ cs.flatMap Cmd.defs

/-- The arguments `xs` have the nominal values `vs` after the history `cs` (a plain value is its own
nominal value). -/
def Nominals (cs : List (Cmd F)) : List (Arg F) → List (PyVal F) → Prop
  | [], [] => True
  | x :: xs, v :: vs => sees cs (.nominal x) = .val v ∧ Nominals cs xs vs
  | _, _ => False

/-- Idem for keyword arguments. -/
def NominalsKw (cs : List (Cmd F)) : List (String × Arg F) → List (String × PyVal F) → Prop
  | [], [] => True
  | (k, x) :: xs, (k', v) :: vs => k = k' ∧ sees cs (.nominal x) = .val v ∧ NominalsKw cs xs vs
  | _, _ => False

/-- Element of a matrix. -/
def entry {F : Type} (M : List (List F)) (i j : Nat) : Option F := (M[i]?).bind (·[j]?)

end Unc
