import Verif.Model.Wrap

/-
Specification of the derivatives used by a wrapped function, from the documentation of `wrap`
(core.py 436-549): which function is used for which argument, independently of any cache.
-/

namespace Unc

variable {F : Type} [PyFloat F]

/-- Derivative documented for the positional argument number `i`: the supplied one, if any, else
numerical differentiation. -/
def WrapDef.specPos (df : WrapDef F) (i : Nat) : DerivFn F :=
  match df.derivativesArgs with
  | .finite l =>
    match l[i]? with
    | some (some d) => d
    | _ => partialDerivative df.f (.pos i)
  | .infinite s =>
    match s i with
    | some d => d
    | none => partialDerivative df.f (.pos i)

/-- Derivative documented for a keyword that is not the name of a positional-or-keyword
parameter. -/
def WrapDef.specKeyword (df : WrapDef F) (name : String) : DerivFn F :=
  match df.derivativesKwargs.lookup name with
  | some (some d) => d
  | _ => partialDerivative df.f (.kw name)

/-- Derivative documented for the positional-or-keyword parameter number `i`, passed by keyword. -/
def WrapDef.specParam (df : WrapDef F) (i : Nat) (name : String) : DerivFn F :=
  match df.derivativesArgs with
  | .finite l =>
    match l[i]? with
    | some (some d) => d
    | _ => partialDerivative df.f (.kw name)
  | .infinite s =>
    match s i with
    | some d => d
    | none => partialDerivative df.f (.kw name)

/-- Derivative documented for a keyword argument. -/
def WrapDef.specKw (df : WrapDef F) (name : String) : DerivFn F :=
  match df.argspec with
  | none => df.specKeyword name
  | some names =>
    match names.idxOf? name with
    | some i => df.specParam i name
    | none => df.specKeyword name

end Unc
